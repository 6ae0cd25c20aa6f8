import Verif.Lemmas.SignVar

/-! # The loop of `_fmpz_poly_descartes_bound_0_1` counts sign variations (helper lemmas) -/

namespace EAntic
open Polynomial

lemma prefixSumsFrom_length (acc : ℤ) (l : List ℤ) : (prefixSumsFrom acc l).length = l.length := by
  induction l generalizing acc with
  | nil => rfl
  | cons a l ih => simp [prefixSumsFrom, ih]

lemma prefixSums_length (l : List ℤ) : (prefixSums l).length = l.length := prefixSumsFrom_length 0 l

lemma prefixSumsFrom_append (acc : ℤ) (l : List ℤ) (a : ℤ) :
    prefixSumsFrom acc (l ++ [a]) = prefixSumsFrom acc l ++ [acc + l.sum + a] := by
  induction l generalizing acc with
  | nil => simp [prefixSumsFrom]
  | cons b l ih => simp only [List.cons_append, prefixSumsFrom, ih, List.sum_cons]; congr 3; ring

lemma prefixSums_append (l : List ℤ) (a : ℤ) :
    prefixSums (l ++ [a]) = prefixSums l ++ [l.sum + a] := by
  simp [prefixSums, prefixSumsFrom_append]

/-- The successive values `q[deg - i]` looked at by the loop: for a nonempty list, first the total
sum, then recursively those of the proper prefix sums. -/
def tseq (q : List ℤ) : List ℤ :=
  match h : q with
  | [] => []
  | _ :: _ => q.sum :: tseq (prefixSums q).dropLast
termination_by q.length
decreasing_by subst h; simp [prefixSums_length]

lemma tseq_nil : tseq [] = [] := by rw [tseq]

lemma tseq_append (l : List ℤ) (a : ℤ) : tseq (l ++ [a]) = (l.sum + a) :: tseq (prefixSums l) := by
  rw [tseq.eq_def]
  split
  · simp at *
  · rename_i h
    simp [prefixSums_append]

lemma tseq_length (n : ℕ) : ∀ l : List ℤ, l.length = n → (tseq l).length = n := by
  induction n with
  | zero => intro l hl; simp [List.length_eq_zero_iff.1 hl, tseq_nil]
  | succ n ih =>
    intro l hl
    obtain ⟨l', a, rfl⟩ : ∃ l' a, l = l' ++ [a] := by
      refine ⟨l.dropLast, l.getLast (by intro h; simp [h] at hl), ?_⟩
      exact (List.dropLast_append_getLast _).symm
    rw [tseq_append]
    have : l'.length = n := by simpa using hl
    simp [ih (prefixSums l') (by rw [prefixSums_length, this])]

/-- `∑ pᵢ Xⁱ (1+X)^(n-i)` where `n + 1` is the length. -/
noncomputable def hom : List ℤ → ℝ[X]
  | [] => 0
  | a :: p => C (a : ℝ) * (1 + X) ^ p.length + X * hom p

lemma hom_append (l : List ℤ) (a : ℤ) :
    hom (l ++ [a]) = (1 + X) * hom l + C (a : ℝ) * X ^ l.length := by
  induction l with
  | nil => simp [hom]
  | cons b l ih => simp only [List.cons_append, hom, ih, List.length_append, List.length_cons,
      List.length_nil]; ring

lemma hom_prefixSums (l : List ℤ) :
    (1 + X) * hom l = hom (prefixSums l) + C ((l.sum : ℤ) : ℝ) * X ^ l.length := by
  induction l using List.reverseRecOn with
  | nil => simp [hom, prefixSums, prefixSumsFrom]
  | append_singleton l a ih =>
    rw [prefixSums_append, hom_append, hom_append, prefixSums_length, mul_add, ih]
    simp only [List.sum_append, List.sum_cons, List.sum_nil, List.length_append, List.length_cons,
      List.length_nil, Int.cast_add, C_add, Int.cast_zero, C_0]
    simp only [add_zero, zero_add]
    ring

lemma hom_append' (l : List ℤ) (a : ℤ) :
    hom (l ++ [a]) = hom (prefixSums l) + C ((l.sum + a : ℤ) : ℝ) * X ^ l.length := by
  rw [hom_append, hom_prefixSums]; push_cast; rw [C_add]; ring

/-- The values looked at are the coefficients of `hom`, highest first. -/
theorem toPoly_tseq (n : ℕ) : ∀ l : List ℤ, l.length = n → toPoly (tseq l).reverse = hom l := by
  induction n with
  | zero => intro l hl; simp [List.length_eq_zero_iff.1 hl, tseq_nil, toPoly, hom]
  | succ n ih =>
    intro l hl
    obtain ⟨l', a, rfl⟩ : ∃ l' a, l = l' ++ [a] := by
      refine ⟨l.dropLast, l.getLast (by intro h; simp [h] at hl), ?_⟩
      exact (List.dropLast_append_getLast _).symm
    have h' : l'.length = n := by simpa using hl
    have hp : (prefixSums l').length = n := by rw [prefixSums_length, h']
    rw [tseq_append, toPoly_reverse_cons, ih _ hp, tseq_length n _ hp, hom_append', h',
      ← C_mul_X_pow_eq_monomial]

/-! ## signs -/

lemma allSignOrZero_iff (t : ℤ) (l : List ℤ) :
    allSignOrZero t l = true ↔ ∀ a ∈ l, sgn a = t ∨ sgn a = 0 := by
  simp [allSignOrZero]

/-- closure of "sign t or 0" under addition -/
lemma sgn_add {t a b : ℤ} (ha : sgn a = t ∨ sgn a = 0) (hb : sgn b = t ∨ sgn b = 0) :
    sgn (a + b) = t ∨ sgn (a + b) = 0 := by
  rw [sgn_eq_zero] at ha hb
  rcases ha with ha | rfl
  · rcases hb with hb | rfl
    · left
      rcases sgn_cases a with h | h | h
      · rw [h] at ha; subst ha
        rw [sgn_neg] at h hb ⊢; omega
      · have ha0 := sgn_eq_zero.1 h; rw [h] at ha; subst ha; rw [ha0, zero_add, hb]
      · rw [h] at ha; subst ha
        rw [sgn_pos] at h hb ⊢; omega
    · left; simpa using ha
  · rw [zero_add, sgn_eq_zero]; exact hb

lemma sgn_sum {t : ℤ} {l : List ℤ} (h : ∀ a ∈ l, sgn a = t ∨ sgn a = 0) :
    sgn l.sum = t ∨ sgn l.sum = 0 := by
  induction l with
  | nil => right; simp [sgn]
  | cons a l ih =>
    rw [List.sum_cons]
    exact sgn_add (h a (by simp)) (ih fun b hb => h b (by simp [hb]))

lemma prefixSumsFrom_sign {t acc : ℤ} {l : List ℤ} (hacc : sgn acc = t ∨ sgn acc = 0)
    (h : ∀ a ∈ l, sgn a = t ∨ sgn a = 0) :
    ∀ a ∈ prefixSumsFrom acc l, sgn a = t ∨ sgn a = 0 := by
  induction l generalizing acc with
  | nil => simp [prefixSumsFrom]
  | cons b l ih =>
    intro a ha
    have hb := sgn_add hacc (h b (by simp))
    rw [prefixSumsFrom, List.mem_cons] at ha
    rcases ha with rfl | ha
    · exact hb
    · exact ih hb (fun c hc => h c (by simp [hc])) a ha

lemma tseq_sign {t : ℤ} (n : ℕ) : ∀ l : List ℤ, l.length = n →
    (∀ a ∈ l, sgn a = t ∨ sgn a = 0) → ∀ a ∈ tseq l, sgn a = t ∨ sgn a = 0 := by
  induction n with
  | zero => intro l hl; simp [List.length_eq_zero_iff.1 hl, tseq_nil]
  | succ n ih =>
    intro l hl h
    obtain ⟨l', b, rfl⟩ : ∃ l' a, l = l' ++ [a] := by
      refine ⟨l.dropLast, l.getLast (by intro h; simp [h] at hl), ?_⟩
      exact (List.dropLast_append_getLast _).symm
    have h' : l'.length = n := by simpa using hl
    rw [tseq_append]
    intro a ha
    rw [List.mem_cons] at ha
    rcases ha with rfl | ha
    · have := sgn_sum h; simpa using this
    · refine ih (prefixSums l') (by rw [prefixSums_length, h']) ?_ a ha
      exact prefixSumsFrom_sign (by right; rfl) fun c hc => h c (by simp [hc])

lemma var_eq_zero_of_sign {t s : ℤ} (hs : s = t ∨ s = 0) (l : List ℤ)
    (h : ∀ a ∈ l, sgn a = t ∨ sgn a = 0) : var s l = 0 := by
  induction l generalizing s with
  | nil => rfl
  | cons a l ih =>
    have ih' := fun s hs => ih (s := s) hs fun b hb => h b (by simp [hb])
    unfold var
    split
    · exact ih' _ (h a (by simp))
    · rename_i h0
      have hst : s = t := hs.resolve_right h0
      split
      · rename_i h1
        rcases h a (by simp) with h2 | h2 <;> omega
      · exact ih' _ hs

/-- The scan for the reference sign, and the test on the remaining entries. -/
lemma firstSign_sign {s : ℤ} {l : List ℤ} :
    (∀ a ∈ (firstSign s l).2, sgn a = (firstSign s l).1 ∨ sgn a = 0) →
    (∀ a ∈ l, sgn a = (firstSign s l).1 ∨ sgn a = 0) ∧
      (s = (firstSign s l).1 ∨ s = 0) := by
  induction l generalizing s with
  | nil => simp [firstSign]
  | cons b l ih =>
    unfold firstSign
    split
    · rename_i h0
      intro h
      obtain ⟨h1, h2⟩ := ih h
      refine ⟨?_, .inr h0⟩
      intro a ha
      rw [List.mem_cons] at ha
      rcases ha with rfl | ha
      · exact h2
      · exact h1 a ha
    · intro h; exact ⟨h, .inl rfl⟩

lemma allZero_of_tseq_zero (l : List ℤ) (h : ∀ a ∈ tseq l, a = 0) : hom l = 0 := by
  rw [← toPoly_tseq _ l rfl, toPoly_eq_zero_iff]; intro a ha; exact h a (by simpa using ha)

/-- Does the remaining state still carry a nonzero value? -/
def Live (s : ℤ) (q : List ℤ) : Prop := s ≠ 0 ∨ ∃ a ∈ tseq q, a ≠ 0

theorem descLoop_eq (bound : ℕ) (n : ℕ) : ∀ (q : List ℤ) (s : ℤ) (V : ℕ), q.length = n → q ≠ [] →
    V ≤ bound → Live s q → (s = 1 ∨ s = 0 ∨ s = -1) →
    descLoop bound q s V =
      if V + var s (tseq q) ≤ bound then some (V + var s (tseq q)) else none := by
  induction n with
  | zero => intro q s V hq hne; exact absurd (List.length_eq_zero_iff.1 hq) hne
  | succ n ih =>
    intro q s V hq _ hV hlive hs
    match q, hq with
    | [a], _ =>
      have ht : tseq [a] = [a] := by
        have := tseq_append [] a
        simpa [prefixSums, prefixSumsFrom, tseq_nil] using this
      unfold Live at hlive
      rw [ht] at hlive ⊢
      rw [descLoop]
      by_cases h0 : s = 0
      · have ha : a ≠ 0 := by
          rcases hlive with h | ⟨b, hb, hb0⟩
          · exact absurd h0 h
          · simp at hb; rwa [hb] at hb0
        have hsa : ¬ (s = - sgn a) := by
          rw [h0]; intro h
          exact ha (sgn_eq_zero.1 (by omega))
        rw [if_neg hsa]; simp [var, h0, hV]
      · by_cases h1 : s = - sgn a
        · rw [if_pos h1]
          have hv : var s [a] = 1 := by unfold var; rw [if_neg h0, if_pos h1]; rfl
          rw [hv]
          by_cases h2 : V = bound
          · simp [h2]
          · rw [if_neg h2, if_pos (by omega)]
        · have hv : var s [a] = 0 := by unfold var; rw [if_neg h0, if_neg h1]; rfl
          rw [if_neg h1, hv]; simp [hV]
    | a :: b :: q', hq =>
      rw [descLoop]
      simp only
      generalize hq0 : a :: b :: q' = q at *
      have hqne : q ≠ [] := by rw [← hq0]; simp
      obtain ⟨l, c, hl⟩ : ∃ l c, q = l ++ [c] :=
        ⟨q.dropLast, q.getLast hqne, (List.dropLast_append_getLast _).symm⟩
      have hln : l.length = n := by rw [hl] at hq; simpa using hq
      have hlne : prefixSums l ≠ [] := by
        intro h
        have h2 := prefixSums_length l
        rw [h] at h2
        have : q.length = 1 := by rw [hl]; simp [← h2]
        rw [← hq0] at this; simp at this
      by_cases hall : allSignOrZero (firstSign s q.reverse).1 (firstSign s q.reverse).2 = true
      · rw [if_pos hall]
        obtain ⟨h1, h2⟩ := firstSign_sign ((allSignOrZero_iff _ _).1 hall)
        have h3 := tseq_sign _ q rfl (fun a ha => h1 a (by simpa using ha))
        rw [var_eq_zero_of_sign h2 _ h3]
        simp [hV]
      · rw [if_neg hall]
        have e1 : (prefixSums q).dropLast = prefixSums l := by rw [hl, prefixSums_append]; simp
        have e2 : (prefixSums q).getLastD 0 = l.sum + c := by
          rw [hl, prefixSums_append]; simp
        have e3 : tseq q = (l.sum + c) :: tseq (prefixSums l) := by rw [hl, tseq_append]
        rw [e1, e2, e3]
        unfold Live at hlive
        rw [e3] at hlive
        have hlen : (prefixSums l).length = n := by rw [prefixSums_length, hln]
        by_cases h0 : s = 0
        · rw [if_pos h0]
          have hv : var s ((l.sum + c) :: tseq (prefixSums l)) =
              var (sgn (l.sum + c)) (tseq (prefixSums l)) := by rw [var, if_pos h0]
          rw [hv]
          refine ih _ _ _ hlen hlne hV ?_ (by rcases sgn_cases (l.sum + c) with h | h | h <;> omega)
          rcases hlive with h | ⟨d, hd, hd0⟩
          · exact absurd h0 h
          · rw [List.mem_cons] at hd
            rcases hd with rfl | hd
            · left; rwa [Ne, sgn_eq_zero]
            · right; exact ⟨d, hd, hd0⟩
        · rw [if_neg h0]
          by_cases h1 : s = - sgn (l.sum + c)
          · rw [if_pos h1]
            have hv : var s ((l.sum + c) :: tseq (prefixSums l)) =
              var (-s) (tseq (prefixSums l)) + 1 := by rw [var, if_neg h0, if_pos h1]
            rw [hv]
            by_cases h2 : V = bound
            · rw [if_pos h2, if_neg (by omega)]
            · rw [if_neg h2, ih _ (-s) (V + 1) hlen hlne (by omega) (.inl (neg_ne_zero.2 h0))
                (by rcases hs with h | h | h <;> simp [h])]
              rw [show V + 1 + var (-s) (tseq (prefixSums l)) =
                V + (var (-s) (tseq (prefixSums l)) + 1) by omega]
          · rw [if_neg h1]
            have hv : var s ((l.sum + c) :: tseq (prefixSums l)) =
              var s (tseq (prefixSums l)) := by rw [var, if_neg h0, if_neg h1]
            rw [hv]
            exact ih _ _ _ hlen hlne hV (.inl h0) hs

/-- Functional characterisation of the C function. -/
theorem descartesBound01_eq (p : List ℤ) (bound : ℕ) (hp : hom p ≠ 0) :
    descartesBound01 p bound =
      if var 0 (tseq p) ≤ bound then some (var 0 (tseq p)) else none := by
  have hpne : p ≠ [] := by rintro rfl; exact hp rfl
  obtain ⟨l, c, rfl⟩ : ∃ l c, p = l ++ [c] :=
    ⟨p.dropLast, p.getLast hpne, (List.dropLast_append_getLast _).symm⟩
  unfold descartesBound01
  by_cases hall : allSignOrZero (sgn ((l ++ [c]).getLastD 0)) (l ++ [c]) = true
  · rw [if_pos hall]
    rw [var_eq_zero_of_sign (t := sgn ((l ++ [c]).getLastD 0)) (.inr rfl) _
      (tseq_sign _ _ rfl ((allSignOrZero_iff _ _).1 hall))]
    simp
  · rw [if_neg hall]
    have e1 : (prefixSums (l ++ [c])).dropLast = prefixSums l := by rw [prefixSums_append]; simp
    have e2 : (prefixSums (l ++ [c])).getLastD 0 = l.sum + c := by rw [prefixSums_append]; simp
    simp only [e1, e2]
    have hlne : prefixSums l ≠ [] := by
      intro h
      have h2 := prefixSums_length l
      rw [h] at h2
      have : l = [] := List.length_eq_zero_iff.1 h2.symm
      subst this
      simp [allSignOrZero] at hall
    rw [tseq_append]
    have hv : var 0 ((l.sum + c) :: tseq (prefixSums l)) =
              var (sgn (l.sum + c)) (tseq (prefixSums l)) := by rw [var, if_pos rfl]
    rw [hv]
    have := descLoop_eq bound _ (prefixSums l) (sgn (l.sum + c)) 0 rfl hlne (Nat.zero_le _) ?_
      (by rcases sgn_cases (l.sum + c) with h | h | h <;> omega)
    · simpa using this
    · by_contra hcon
      simp only [Live, not_or, not_not, not_exists, not_and] at hcon
      apply hp
      apply allZero_of_tseq_zero
      rw [tseq_append]
      intro a ha
      rw [List.mem_cons] at ha
      rcases ha with rfl | ha
      · exact sgn_eq_zero.1 hcon.1
      · exact hcon.2 a ha

end EAntic
