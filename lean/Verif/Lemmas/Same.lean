import Verif.Spec.Same
import Verif.Lemmas.Nf
import Verif.Lemmas.NearDouble
import Verif.Lemmas.AddFmpq

/-! # The exact semantics is deterministic -/

namespace EAntic.Cxx

open Polynomial

/-- of two candidates at the same distance only one is even -/
theorem no_tie {q q' : ℚ} {k k' : ℤ} (hqq : q ≠ q') (hk : q = 2 * k * |q - q'|)
    (hk' : q' = 2 * k' * |q' - q|) : False := by
  rw [abs_sub_comm] at hk'
  have hd : (0 : ℚ) < |q - q'| := abs_pos.2 (sub_ne_zero.2 hqq)
  have e : q - q' = 2 * (k - k') * |q - q'| := by
    linear_combination hk - hk'
  rcases abs_cases (q - q') with ⟨h5, -⟩ | ⟨h5, -⟩
  · have e2 : (1 - 2 * ((k : ℚ) - k')) * |q - q'| = 0 := by
      rw [sub_mul, ← e, one_mul, h5, sub_self]
    rcases mul_eq_zero.1 e2 with h6 | h6
    · have : (1 : ℤ) - 2 * (k - k') = 0 := by exact_mod_cast h6
      omega
    · exact hd.ne' h6
  · have e2 : (1 + 2 * ((k : ℚ) - k')) * |q - q'| = 0 := by
      rw [add_mul, ← e, one_mul, h5]; ring
    rcases mul_eq_zero.1 e2 with h6 | h6
    · have : (1 : ℤ) + 2 * (k - k') = 0 := by exact_mod_cast h6
      omega
    · exact hd.ne' h6

theorem roundsNear_det {x : ℝ} {d d' : Dbl} (h : RoundsNear x d) (h' : RoundsNear x d') :
    d = d' := by
  by_cases hx : IsRat x
  swap
  · exact roundsNear_unique hx h h'
  have hlim : (0 : ℝ) < dblLim := by
    have : (0 : ℚ) < dblLim := by
      unfold dblLim
      rw [sub_pos]
      exact zpow_lt_zpow_right₀ (by norm_num) (by norm_num)
    exact_mod_cast this
  cases d with
  | fin q =>
    cases d' with
    | fin q' =>
      by_contra hne
      have hqq : q ≠ q' := fun h => hne (by rw [h])
      have h3 : |x - q| = |x - q'| := le_antisymm (h.2.2.1 q' h'.1) (h'.2.2.1 q h.1)
      obtain ⟨k, hk⟩ := h.2.2.2 q' h'.1 hqq.symm h3
      obtain ⟨k', hk'⟩ := h'.2.2.2 q h.1 hqq h3.symm
      exact no_tie hqq hk hk'
    | inf => have := (abs_lt.1 h.2.1).2; have h' : (dblLim : ℝ) ≤ x := h'; linarith
    | ninf => have := (abs_lt.1 h.2.1).1; have h' : x ≤ -(dblLim : ℝ) := h'; linarith
  | inf =>
    have h : (dblLim : ℝ) ≤ x := h
    cases d' with
    | fin q' => have := (abs_lt.1 h'.2.1).2; linarith
    | inf => rfl
    | ninf => have h' : x ≤ -(dblLim : ℝ) := h'; linarith
  | ninf =>
    have h : x ≤ -(dblLim : ℝ) := h
    cases d' with
    | fin q' => have := (abs_lt.1 h'.2.1).1; linarith
    | inf => have h' : (dblLim : ℝ) ≤ x := h'; linarith
    | ninf => rfl

theorem rounds53_det {x r r' : ℚ} (h : RoundsTo53Bits x r) (h' : RoundsTo53Bits x r') : r = r' := by
  by_contra hne
  have h3 : |x - r| = |x - r'| := le_antisymm (h.2.1 r' h'.1) (h'.2.1 r h.1)
  obtain ⟨k, hk⟩ := h.2.2 r' h'.1 (Ne.symm hne) h3
  obtain ⟨k', hk'⟩ := h'.2.2 r h.1 hne h3.symm
  exact no_tie hne hk hk'

theorem castsTo_det {a : ℝ} {d d' : Dbl} (h : CastsTo a d) (h' : CastsTo a d') : d = d' := by
  by_cases hq : ∃ q : ℚ, a = q
  · obtain ⟨q, hq⟩ := hq
    obtain ⟨r, h1, h2⟩ := h.2.1 q hq
    obtain ⟨r', h1', h2'⟩ := h'.2.1 q hq
    obtain rfl := rounds53_det h1 h1'
    exact roundsNear_det h2 h2'
  · have hq : ∀ q : ℚ, a ≠ q := fun q e => hq ⟨q, e⟩
    obtain ⟨h1, h2, h3⟩ := h.2.2 hq
    obtain ⟨h1', h2', h3'⟩ := h'.2.2 hq
    by_cases h4 : |a| ≤ dblMax
    · exact roundsNear_det (h1 h4) (h1' h4)
    · by_cases h5 : (dblMax : ℝ) < a
      · rw [h2 h5, h2' h5]
      · have h6 : a < -dblMax := by
          rw [abs_le] at h4
          by_contra hc
          exact h4 ⟨by linarith, by linarith⟩
        rw [h3 h6, h3' h6]

theorem isDen_unique {α x : ℝ} {n : ℕ} {d d' : ℤ} (h : IsDen α n x d) (h' : IsDen α n x d') :
    d = d' := by
  obtain ⟨⟨l, hl, hc⟩, hm⟩ := h
  obtain ⟨⟨l', hl', hc'⟩, hm'⟩ := h'
  exact Int.dvd_antisymm hc.1.le hc'.1.le (hm l' d' hl' hc') (hm' l d hl hc)

theorem toPolyQ_degree_lt (l : List ℤ) (n : ℕ) (h : l.length = n) : (toPolyQ l).degree < n := by
  rw [degree_lt_iff_coeff_zero]
  intro i hi
  rw [QPoly.toPolyQ_coeff, List.getD_eq_getElem?_getD, List.getElem?_eq_none (by omega)]
  simp

theorem hasCoords_unique {K : Nf} (hK : K.Ok) {α : ℝ} (hα : K.IsRoot α) {x : ℝ} {l l' : List ℤ}
    {d : ℤ} (hl : l.length = K.degree) (hl' : l'.length = K.degree) (h : HasCoords α x l d)
    (h' : HasCoords α x l' d) : l = l' := by
  have hd : (d : ℝ) ≠ 0 := by exact_mod_cast h.1.ne'
  have e : realValue α l d = realValue α l' d := h.2.symm.trans h'.2
  have e1 : realValue α l 1 = realValue α l' 1 := by
    unfold realValue at e ⊢
    rw [div_left_inj' hd] at e
    rw [e]
  rw [realValue_eq, realValue_eq] at e1
  simp only [Int.cast_one, div_one, map_one, one_mul] at e1
  have := polyQ_inj hK hα (toPolyQ_degree_lt l _ hl) (toPolyQ_degree_lt l' _ hl') e1
  refine List.ext_getElem (hl.trans hl'.symm) fun i h1 h2 => ?_
  have hc := congrArg (fun p => Polynomial.coeff p i) this
  simp only [QPoly.toPolyQ_coeff] at hc
  rw [List.getD_eq_getElem _ _ h1, List.getD_eq_getElem _ _ h2] at hc
  exact_mod_cast hc

theorem resultField_unique {i j : ℕ} {b : ℝ} {k k' : ℕ} (h : ResultField i j b k)
    (h' : ResultField i j b k') : k = k' := by
  unfold ResultField at h h'
  by_cases h1 : i = j <;> by_cases h2 : IsRat b <;> simp_all

theorem tell_det {S S' S'' : ℕ → Slot} {a b : Val} {p : Prop}
    (h : S' = S ∧ ∃ t, a = Val.bool t ∧ (t = true ↔ p))
    (h' : S'' = S ∧ ∃ t, b = Val.bool t ∧ (t = true ↔ p)) : a = b ∧ S' = S'' := by
  obtain ⟨rfl, t, rfl, ht⟩ := h
  obtain ⟨rfl, t', rfl, ht'⟩ := h'
  exact ⟨by rw [Bool.eq_iff_iff.2 (ht.trans ht'.symm)], rfl⟩

theorem put_det {S S' S'' : ℕ → Slot} {a b : Val} {x i : ℕ} {v : ℝ}
    (h : a = Val.unit ∧ S' = Function.update S x (.elem i v))
    (h' : b = Val.unit ∧ S'' = Function.update S x (.elem i v)) : a = b ∧ S' = S'' :=
  ⟨h.1.trans h'.1.symm, h.2.trans h'.2.symm⟩

variable {L : Lib} {α : ℕ → ℝ}

theorem step_det (hK : ∀ i, (L.K i).Ok) (hα : ∀ i, (L.K i).IsRoot (α i)) {S S' S'' : ℕ → Slot}
    {c : Cmd} {a b : Val} (he : Exact L S c) (h : Step L α S c a S')
    (h' : Step L α S c b S'') : a = b ∧ S' = S'' := by
  have one : ∀ {x i j : ℕ} {u v : ℝ}, S x = .elem i u → S x = .elem j v → j = i ∧ v = u := by
    intro x i j u v h1 h2
    have := h2.symm.trans h1
    injection this with e1 e2
    exact ⟨e1, e2⟩
  cases c with
  | construct x k => exact put_det h h'
  | constructZ x k z => exact put_det h h'
  | constructQ x k q => exact put_det h h'
  | constructInt x k t z => exact put_det h h'
  | constructVec x k n d => exact put_det h h'
  | assignZ x z => exact put_det h h'
  | assignQ x z => exact put_det h h'
  | assignInt x t z => exact put_det h h'
  | constructFrom x k y =>
    obtain ⟨j, v, h1, -, h2⟩ := h
    obtain ⟨j', v', h1', -, h2'⟩ := h'
    obtain ⟨rfl, rfl⟩ := one h1 h1'
    exact put_det h2 h2'
  | copyCtor x y =>
    obtain ⟨j, v, h1, h2⟩ := h
    obtain ⟨j', v', h1', h2'⟩ := h'
    obtain ⟨rfl, rfl⟩ := one h1 h1'
    exact put_det h2 h2'
  | copyAssign x y =>
    obtain ⟨j, v, h1, h2⟩ := h
    obtain ⟨j', v', h1', h2'⟩ := h'
    obtain ⟨rfl, rfl⟩ := one h1 h1'
    exact put_det h2 h2'
  | moveCtor x y => exact ⟨h.1.trans h'.1.symm, h.2.trans h'.2.symm⟩
  | destroy x => exact ⟨h.1.trans h'.1.symm, h.2.trans h'.2.symm⟩
  | swap x y => exact ⟨h.1.trans h'.1.symm, h.2.trans h'.2.symm⟩
  | moveAssign x y =>
    refine ⟨h.1.trans h'.1.symm, ?_⟩
    rcases h.2 with ⟨⟨i, v, h1⟩, h2⟩ | ⟨h1, h2⟩ <;>
      rcases h'.2 with ⟨⟨i', v', h1'⟩, h2'⟩ | ⟨h1', h2'⟩
    · exact h2.trans h2'.symm
    · rw [h1] at h1'; cases h1'
    · rw [h1] at h1'; cases h1'
    · exact h2.trans h2'.symm
  | binop f x y =>
    obtain ⟨i, u, j, v, k, h1, h2, -, h3, h4⟩ := h
    obtain ⟨i', u', j', v', k', h1', h2', -, h3', h4'⟩ := h'
    obtain ⟨rfl, rfl⟩ := one h1 h1'
    obtain ⟨rfl, rfl⟩ := one h2 h2'
    obtain rfl := resultField_unique h3 h3'
    exact put_det h4 h4'
  | binary f r x y =>
    obtain ⟨i, u, j, v, k, h1, h2, -, h3, h4⟩ := h
    obtain ⟨i', u', j', v', k', h1', h2', -, h3', h4'⟩ := h'
    obtain ⟨rfl, rfl⟩ := one h1 h1'
    obtain ⟨rfl, rfl⟩ := one h2 h2'
    obtain rfl := resultField_unique h3 h3'
    exact put_det h4 h4'
  | numBinary f r n y =>
    obtain ⟨j, v, k, h1, h3, h4⟩ := h
    obtain ⟨j', v', k', h1', h3', h4'⟩ := h'
    obtain ⟨rfl, rfl⟩ := one h1 h1'
    have : k = k' := by
      by_cases hf : f = .add ∨ f = .mul
      · rw [if_pos hf] at h3 h3'; exact h3.trans h3'.symm
      · rw [if_neg hf] at h3 h3'; exact resultField_unique h3 h3'
    obtain rfl := this
    exact put_det h4 h4'
  | binopZ f x z =>
    obtain ⟨j, v, h1, h2⟩ := h
    obtain ⟨j', v', h1', h2'⟩ := h'
    obtain ⟨rfl, rfl⟩ := one h1 h1'
    exact put_det h2 h2'
  | binopQ f x z =>
    obtain ⟨j, v, h1, h2⟩ := h
    obtain ⟨j', v', h1', h2'⟩ := h'
    obtain ⟨rfl, rfl⟩ := one h1 h1'
    exact put_det h2 h2'
  | binopInt f x t z =>
    obtain ⟨j, v, h1, h2⟩ := h
    obtain ⟨j', v', h1', h2'⟩ := h'
    obtain ⟨rfl, rfl⟩ := one h1 h1'
    exact put_det h2 h2'
  | binaryNum f r x n =>
    obtain ⟨j, v, h1, h2⟩ := h
    obtain ⟨j', v', h1', h2'⟩ := h'
    obtain ⟨rfl, rfl⟩ := one h1 h1'
    exact put_det h2 h2'
  | neg r x =>
    obtain ⟨j, v, h1, h2⟩ := h
    obtain ⟨j', v', h1', h2'⟩ := h'
    obtain ⟨rfl, rfl⟩ := one h1 h1'
    exact put_det h2 h2'
  | pow r x e =>
    obtain ⟨j, v, h1, h2⟩ := h
    obtain ⟨j', v', h1', h2'⟩ := h'
    obtain ⟨rfl, rfl⟩ := one h1 h1'
    exact put_det h2 h2'
  | isZero _ | isOne _ | isInteger _ | isRational _ | toBool _ | eqQ _ _ | eqZ _ _ | eqInt _ _ _
  | ltQ _ _ | gtQ _ _ | ltInt _ _ _ | gtInt _ _ _ | relNum _ _ _ | numRel _ _ _ =>
    obtain ⟨j, v, h1, h2⟩ := h
    obtain ⟨j', v', h1', h2'⟩ := h'
    obtain ⟨rfl, rfl⟩ := one h1 h1'
    exact tell_det h2 h2'
  | eq _ _ | lt _ _ | rel _ _ _ =>
    obtain ⟨i, u, j, v, h1, h2, -, h3⟩ := h
    obtain ⟨i', u', j', v', h1', h2', -, h3'⟩ := h'
    obtain ⟨rfl, rfl⟩ := one h1 h1'
    obtain ⟨rfl, rfl⟩ := one h2 h2'
    exact tell_det h3 h3'
  | toMpz x =>
    obtain ⟨rfl, i, u, z, h1, rfl, h2⟩ := h
    obtain ⟨rfl, i', u', z', h1', rfl, h2'⟩ := h'
    obtain ⟨rfl, rfl⟩ := one h1 h1'
    exact ⟨by rw [Int.cast_injective (h2.symm.trans h2')], rfl⟩
  | toMpq x =>
    obtain ⟨rfl, i, u, z, h1, rfl, h2⟩ := h
    obtain ⟨rfl, i', u', z', h1', rfl, h2'⟩ := h'
    obtain ⟨rfl, rfl⟩ := one h1 h1'
    exact ⟨by rw [Rat.cast_injective (h2.symm.trans h2')], rfl⟩
  | num x =>
    obtain ⟨rfl, i, u, z, h1, rfl, h2⟩ := h
    obtain ⟨rfl, i', u', z', h1', rfl, h2'⟩ := h'
    obtain ⟨rfl, rfl⟩ := one h1 h1'
    exact ⟨by rw [Rat.cast_injective (h2.symm.trans h2')], rfl⟩
  | den x =>
    obtain ⟨rfl, i, u, z, h1, rfl, h2⟩ := h
    obtain ⟨rfl, i', u', z', h1', rfl, h2'⟩ := h'
    obtain ⟨rfl, rfl⟩ := one h1 h1'
    exact ⟨by rw [isDen_unique h2 h2'], rfl⟩
  | numVector x =>
    obtain ⟨rfl, i, u, l, d, h1, rfl, h2, h3, h4⟩ := h
    obtain ⟨rfl, i', u', l', d', h1', rfl, h2', h3', h4'⟩ := h'
    obtain ⟨rfl, rfl⟩ := one h1 h1'
    obtain rfl := isDen_unique h4 h4'
    exact ⟨by rw [hasCoords_unique (hK _) (hα _) h2 h2' h3 h3'], rfl⟩
  | numContent x =>
    obtain ⟨rfl, i, u, l, d, g, h1, rfl, h2, h3, h4, h5, h6, h7⟩ := h
    obtain ⟨rfl, i', u', l', d', g', h1', rfl, h2', h3', h4', h5', h6', h7'⟩ := h'
    obtain ⟨rfl, rfl⟩ := one h1 h1'
    obtain rfl := isDen_unique h4 h4'
    obtain rfl := hasCoords_unique (hK _) (hα _) h2 h2' h3 h3'
    exact ⟨by rw [Int.dvd_antisymm h5 h5' (h7' _ h6) (h7 _ h6')], rfl⟩
  | sgn x =>
    obtain ⟨rfl, i, u, h1, rfl⟩ := h
    obtain ⟨rfl, i', u', h1', rfl⟩ := h'
    obtain ⟨rfl, rfl⟩ := one h1 h1'
    exact ⟨rfl, rfl⟩
  | floor x =>
    obtain ⟨rfl, i, u, z, h1, rfl, h2⟩ := h
    obtain ⟨rfl, i', u', z', h1', rfl, h2'⟩ := h'
    obtain ⟨rfl, rfl⟩ := one h1 h1'
    have := he _ _ h1
    exact ⟨by rw [h2 this, h2' this], rfl⟩
  | ceil x =>
    obtain ⟨rfl, i, u, z, h1, rfl, h2⟩ := h
    obtain ⟨rfl, i', u', z', h1', rfl, h2'⟩ := h'
    obtain ⟨rfl, rfl⟩ := one h1 h1'
    have := he _ _ h1
    exact ⟨by rw [h2 this, h2' this], rfl⟩
  | floordiv x y =>
    obtain ⟨rfl, i, u, j, v, z, h1, h2, rfl, h3, -⟩ := h
    obtain ⟨rfl, i', u', j', v', z', h1', h2', rfl, h3', -⟩ := h'
    obtain ⟨rfl, rfl⟩ := one h1 h1'
    obtain ⟨rfl, rfl⟩ := one h2 h2'
    have := he _ _ _ _ h1 h2
    exact ⟨by rw [h3 this, h3' this], rfl⟩
  | toDouble x =>
    obtain ⟨rfl, i, u, z, h1, rfl, h2⟩ := h
    obtain ⟨rfl, i', u', z', h1', rfl, h2'⟩ := h'
    obtain ⟨rfl, rfl⟩ := one h1 h1'
    exact ⟨by rw [castsTo_det h2 h2'], rfl⟩

/-- A call that throws does not return. -/
theorem not_throws_step {S S' : ℕ → Slot} {c : Cmd} {a : Val} {s : String}
    (h : Step L α S c a S') : ¬ Throws L S c s := by
  intro h'
  have one : ∀ {x i j : ℕ} {u v : ℝ}, S x = .elem i u → S x = .elem j v → j = i ∧ v = u := by
    intro x i j u v h1 h2
    have := h2.symm.trans h1
    injection this with e1 e2
    exact ⟨e1, e2⟩
  cases c with
  | constructFrom x k y =>
    obtain ⟨j, v, h1, h2, -⟩ := h
    obtain ⟨j', v', h1', h2', h3'⟩ := h'
    obtain ⟨rfl, rfl⟩ := one h1 h1'
    exact h2.elim h2' h3'
  | binop f x y =>
    obtain ⟨i, u, j, v, k, h1, h2, h3, -⟩ := h
    obtain ⟨i', u', j', v', h1', h2', h3'⟩ := h'
    obtain ⟨rfl, rfl⟩ := one h1 h1'
    obtain ⟨rfl, rfl⟩ := one h2 h2'
    exact h3' h3
  | binary f r x y =>
    obtain ⟨i, u, j, v, k, h1, h2, h3, -⟩ := h
    obtain ⟨i', u', j', v', h1', h2', h3'⟩ := h'
    obtain ⟨rfl, rfl⟩ := one h1 h1'
    obtain ⟨rfl, rfl⟩ := one h2 h2'
    exact h3' h3
  | eq _ _ | lt _ _ | rel _ _ _ =>
    obtain ⟨i, u, j, v, h1, h2, h3, -⟩ := h
    obtain ⟨i', u', j', v', h1', h2', h3'⟩ := h'
    obtain ⟨rfl, rfl⟩ := one h1 h1'
    obtain ⟨rfl, rfl⟩ := one h2 h2'
    exact h3' h3
  | floordiv x y =>
    obtain ⟨-, i, u, j, v, z, h1, h2, -, -, h3⟩ := h
    obtain ⟨i', u', j', v', h1', h2', hr, h3'⟩ := h'
    obtain ⟨rfl, rfl⟩ := one h1 h1'
    obtain ⟨rfl, rfl⟩ := one h2 h2'
    exact h3' (h3 hr)
  | _ => exact h'

theorem tryStep_det (hK : ∀ i, (L.K i).Ok) (hα : ∀ i, (L.K i).IsRoot (α i)) {S S' S'' : ℕ → Slot}
    {c : Cmd} {r r' : Except String Val} (he : Exact L S c)
    (h : TryStep L α S c r S') (h' : TryStep L α S c r' S'') : SameAnswer r r' ∧ S' = S'' := by
  cases r with
  | ok a =>
    cases r' with
    | ok b => exact step_det hK hα he h h'
    | error s => exact absurd h'.1 (not_throws_step h)
  | error s =>
    cases r' with
    | ok b => exact absurd h.1 (not_throws_step h')
    | error s' => exact ⟨trivial, h.2.trans h'.2.symm⟩

theorem trySteps_det (hK : ∀ i, (L.K i).Ok) (hα : ∀ i, (L.K i).IsRoot (α i)) {cs : List Cmd} :
    ∀ {S S' S'' : ℕ → Slot} {rs rs' : List (Except String Val)}, AllExact L α S cs →
      TrySteps L α S cs rs S' → TrySteps L α S cs rs' S'' →
      List.Forall₂ SameAnswer rs rs' ∧ S' = S'' := by
  induction cs with
  | nil =>
    intro S S' S'' rs rs' _ h h'
    cases rs with
    | nil =>
      cases rs' with
      | nil => exact ⟨.nil, Eq.trans h (Eq.symm h')⟩
      | cons _ _ => exact h'.elim
    | cons _ _ => exact h.elim
  | cons c cs ih =>
    intro S S' S'' rs rs' he h h'
    cases rs with
    | nil => exact h.elim
    | cons r rs =>
      cases rs' with
      | nil => exact h'.elim
      | cons r' rs' =>
        obtain ⟨T, h1, h2⟩ := h
        obtain ⟨T', h1', h2'⟩ := h'
        obtain ⟨h3, rfl⟩ := tryStep_det hK hα he.1 h1 h1'
        obtain ⟨h4, h5⟩ := ih (he.2 _ _ h1) h2 h2'
        exact ⟨.cons h3 h4, h5⟩

/-! ### The semantics only depends on the fields -/

variable {L' : Lib}

theorem SameFields.valid (h : SameFields L L') (S : ℕ → Slot) (c : Cmd) :
    Valid L α S c ↔ Valid L' α S c := by
  cases c <;> simp only [Valid, h.fields, h.bits]

theorem SameFields.step (h : SameFields L L') (S : ℕ → Slot) (c : Cmd) (a : Val) (S' : ℕ → Slot) :
    Step L α S c a S' ↔ Step L' α S c a S' := by
  cases c <;> simp only [Step, h.fields, h.strict]

theorem SameFields.throws (h : SameFields L L') (S : ℕ → Slot) (c : Cmd) (s : String) :
    Throws L S c s ↔ Throws L' S c s := by
  cases c <;> simp only [Throws, h.strict]

theorem SameFields.tryStep (h : SameFields L L') (S : ℕ → Slot) (c : Cmd) (r : Except String Val)
    (S' : ℕ → Slot) : TryStep L α S c r S' ↔ TryStep L' α S c r S' := by
  cases r with
  | ok a => exact h.step S c a S'
  | error s => exact and_congr (h.throws S c s) Iff.rfl

theorem SameFields.tryAllowed (h : SameFields L L') {cs : List Cmd} : ∀ (S : ℕ → Slot),
    TryAllowed L α S cs ↔ TryAllowed L' α S cs := by
  induction cs with
  | nil => exact fun _ => Iff.rfl
  | cons c cs ih =>
    intro S
    refine and_congr (h.valid S c) (forall_congr' fun r => forall_congr' fun S' => ?_)
    exact imp_congr (h.tryStep S c r S') (ih S')

theorem SameFields.trySteps (h : SameFields L L') {cs : List Cmd} :
    ∀ (S : ℕ → Slot) (rs : List (Except String Val)) (S' : ℕ → Slot),
    TrySteps L α S cs rs S' ↔ TrySteps L' α S cs rs S' := by
  induction cs with
  | nil => intro S rs S'; cases rs <;> exact Iff.rfl
  | cons c cs ih =>
    intro S rs S'
    cases rs with
    | nil => exact Iff.rfl
    | cons r rs => exact exists_congr fun T => and_congr (h.tryStep S c r T) (ih T rs S')

end EAntic.Cxx
