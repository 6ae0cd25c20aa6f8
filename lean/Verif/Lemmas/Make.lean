import Verif.Spec.Make
import Verif.Lemmas.Text
import Verif.Lemmas.TextIO
import Verif.Lemmas.AddFmpq
import Verif.Lemmas.Init

/-! # Fields made from text -/

namespace EAntic
open Polynomial

namespace Text

lemma rdrop_append (l : List ℚ) : ∃ n, l = l.rdropWhile (· == 0) ++ List.replicate n 0 := by
  refine ⟨(l.rtakeWhile (· == 0)).length, ?_⟩
  have h : ∀ x ∈ l.rtakeWhile (· == 0), x = 0 := fun x hx => by
    simpa using List.mem_rtakeWhile_imp hx
  rw [← List.eq_replicate_of_mem h]
  exact (List.rdropWhile_append_rtakeWhile ..).symm

lemma polyOf_append_zeros (l : List ℚ) (n : ℕ) : polyOf (l ++ List.replicate n 0) = polyOf l := by
  induction l with
  | nil =>
    induction n with
    | zero => rfl
    | succ n ih => rw [List.replicate_succ, List.nil_append, polyOf] at *; simp_all [polyOf]
  | cons a l ih => rw [List.cons_append, polyOf, ih, polyOf]

lemma den_dvd_of_mul {q : ℚ} {k m : ℤ} (h : q * k = m) : (q.den : ℤ) ∣ k := by
  have h1 : (q.num * k : ℤ) = m * q.den := by
    have : (q.num : ℚ) * k = m * q.den := by
      have hq := Rat.num_div_den q
      rw [← hq, div_mul_eq_mul_div, div_eq_iff (by exact_mod_cast q.den_nz)] at h
      exact h
    exact_mod_cast this
  have h2 : (q.den : ℤ) ∣ q.num * k := ⟨m, by rw [h1, mul_comm]⟩
  exact (Rat.isCoprime_num_den q).symm.dvd_of_dvd_mul_left h2

lemma foldr_lcm_dvd (l : List ℚ) (k : ℤ) (h : ∀ q ∈ l, (q.den : ℤ) ∣ k) :
    ((l.foldr (fun q d => Nat.lcm q.den d) 1 : ℕ) : ℤ) ∣ k := by
  induction l with
  | nil => simp
  | cons a l ih =>
    rw [List.foldr_cons]
    have := ih fun q hq => h q (List.mem_cons_of_mem _ hq)
    have h1 := h a List.mem_cons_self
    rw [Int.natCast_dvd] at *
    exact Nat.lcm_dvd h1 this

/-- the polynomial that was read, as FLINT stores it -/
theorem canonical_spec (l : List ℚ) :
    (⟨(canonical l).1, (canonical l).2⟩ : QPoly).Canonical ∧
      (⟨(canonical l).1, (canonical l).2⟩ : QPoly).toPolyQ = polyOf l := by
  obtain ⟨n, hn⟩ := rdrop_append l
  set r := l.rdropWhile (· == 0) with hr
  have hpos : 0 < (common r).2 := common_pos r
  have hposQ : (((common r).2 : ℤ) : ℚ) ≠ 0 := by exact_mod_cast hpos.ne'
  constructor
  · refine QPoly.canonical_of_prime hpos ?_ ?_
    · rintro p hp ⟨d', hd⟩ hall
      have hd' : d' ≠ 0 := by rintro rfl; simp only [mul_zero] at hd; change (common r).2 = 0 at hd; omega
      have hdQ : (((common r).2 : ℤ) : ℚ) = p * d' := by
        have : (common r).2 = p * d' := hd
        rw [this]; push_cast; ring
      have key : ((common r).2 : ℤ) ∣ d' := by
        refine foldr_lcm_dvd r d' fun q hq => ?_
        have hm : (q * (((r.foldr (fun q d => Nat.lcm q.den d) 1 : ℕ) : ℚ))).num ∈ (common r).1 :=
          List.mem_map.2 ⟨q, hq, rfl⟩
        obtain ⟨m, hm⟩ := hall _ hm
        have h1 := num_of_dvd (common_dvd r q hq)
        rw [hm] at h1
        have h2 : q * ((p : ℚ) * d') = p * m := by
          rw [← hdQ]; push_cast at h1; rw [h1]; simp [common]
        have hp0 : (p : ℚ) ≠ 0 := by exact_mod_cast hp.ne_zero
        exact den_dvd_of_mul (m := m) (mul_left_cancel₀ hp0 (by linear_combination h2))
      obtain ⟨c, hc⟩ := key
      have h3 : (common r).2 = p * d' := hd
      rw [h3] at hc
      have h4 : d' * (p * c) = d' * 1 := by linear_combination -hc
      exact hp.not_unit (IsUnit.of_mul_eq_one c (mul_left_cancel₀ hd' h4))
    · intro h
      have hr0 : r ≠ [] := by
        intro h0; apply h; show (common r).1 = []; rw [h0]; rfl
      have hlast : r.getLast hr0 ≠ 0 := by
        have := List.rdropWhile_last_not (· == 0) l hr0
        simpa using this
      have h' : (List.map (fun q : ℚ => (q * ((r.foldr (fun q d => Nat.lcm q.den d) 1 : ℕ) : ℚ)).num)
          r) ≠ [] := by simpa using hr0
      show (List.map (fun q : ℚ => (q * ((r.foldr (fun q d => Nat.lcm q.den d) 1 : ℕ) : ℚ)).num)
          r).getLast h' ≠ 0
      rw [List.getLast_map]
      have h1 := num_of_dvd (common_dvd r _ (List.getLast_mem hr0))
      intro h0
      rw [h0] at h1
      have h2 : ((r.foldr (fun q d => Nat.lcm q.den d) 1 : ℕ) : ℚ) ≠ 0 := by
        simpa [common] using hposQ
      push_cast at h1
      rcases mul_eq_zero.1 h1.symm with h | h
      · exact hlast h
      · exact h2 h
  · have hq : polyOf l = polyOf r := by rw [hn, polyOf_append_zeros]
    rw [hq]
    have := toPolyQ_common r _ (common_dvd r)
    show C (1 / (((common r).2 : ℤ) : ℚ)) * toPolyQ (common r).1 = _
    simp only [common] at this hposQ ⊢
    rw [this, ← mul_assoc, ← C_mul]
    push_cast at hposQ ⊢
    rw [one_div_mul_cancel hposQ, C_1, one_mul]

/-- what was printed is read back -/
theorem canonical_pretty {R : List Char → Option ℚ} (hR : RatReader R) {var : List Char}
    (hv : IsVarname var) {num : List ℤ} {den : ℤ} (hl : num.length ≤ longMax)
    (hc : (⟨num, den⟩ : QPoly).Canonical) :
    ∃ l, setStrPretty R (pretty var num den) var = some l ∧ canonical l = (num, den) := by
  obtain ⟨l, h1, h2⟩ := (setStrPretty_iff R _ var _).2 ⟨hv, pretty_reads hR var num den hl⟩
  obtain ⟨h3, h4⟩ := canonical_spec l
  have := QPoly.canonical_unique h3 hc (h4.trans h2)
  simp only [QPoly.mk.injEq] at this
  exact ⟨l, h1, Prod.ext this.1 this.2⟩

end Text

/-- roots of the integer polynomial and of the rational one -/
lemma root_iff {n : List ℤ} {d : ℤ} (hd : d ≠ 0) (x : ℝ) :
    aeval x (⟨n, d⟩ : QPoly).toPolyQ = 0 ↔ (toPoly n).IsRoot x := by
  have h1 : (C (1 / (d : ℚ)) : ℚ[X]) ≠ 0 := by
    rw [Ne, C_eq_zero]; exact one_div_ne_zero (by exact_mod_cast hd)
  unfold QPoly.toPolyQ
  rw [map_mul, aeval_C, mul_eq_zero]
  have h2 : (algebraMap ℚ ℝ) (1 / (d : ℚ)) ≠ 0 := by
    simpa using hd
  constructor
  · rintro (h | h)
    · exact absurd h h2
    · rw [IsRoot.def, toPoly_eq_map, eval_map_algebraMap]; exact h
  · intro h
    rw [IsRoot.def, toPoly_eq_map, eval_map_algebraMap] at h
    exact .inr h

/-- one iteration that leaves the loop -/
lemma makeStep_inr {E : MakeEnv} {s gen : List Char} {emb : ℤ → Res (List Char)} {p : ℤ}
    {k : NamedField} (h : makeStep E s gen emb p = .ok (.inr k)) :
    ∃ l t e f, Text.setStrPretty E.R s gen = some l ∧ emb p = .ok t ∧ 2 ≤ p ∧
      E.B.read t p = some e ∧
      renfInit E.A E.F E.nd E.n₁ E.n₂ (Text.canonical l).1 e p = .ok f ∧
      k = ⟨f, (Text.canonical l).2, gen⟩ := by
  unfold makeStep at h
  cases hl : Text.setStrPretty E.R s gen with
  | none => rw [hl] at h; cases h
  | some l =>
    rw [hl] at h
    obtain ⟨t, ht, h⟩ := Res.bind_eq_ok.1 h
    by_cases hp : guardPrec p = false
    · rw [if_pos hp] at h; cases h
    rw [if_neg hp] at h
    have hp' : 2 ≤ p := by simp [guardPrec] at hp; omega
    cases he : E.B.read t p with
    | none => rw [he] at h; cases h
    | some e =>
      rw [he] at h
      obtain ⟨c, hc, h⟩ := Res.bind_eq_ok.1 h
      cases c with
      | false => simp only [if_true] at h; split_ifs at h <;> cases h
      | true =>
        simp only [Bool.true_eq_false, if_false] at h
        obtain ⟨f, hf, h⟩ := Res.bind_eq_ok.1 h
        cases h
        exact ⟨l, t, e, f, rfl, ht, hp', he, hf, rfl⟩

/-- one iteration that continues -/
lemma makeStep_inl {E : MakeEnv} {s gen : List Char} {emb : ℤ → Res (List Char)} {p p' : ℤ}
    (h : makeStep E s gen emb p = .ok (.inl p')) :
    p' = p * 2 ∧ ∃ l t e, Text.setStrPretty E.R s gen = some l ∧ emb p = .ok t ∧ 2 ≤ p ∧
      E.B.read t p = some e ∧
      checkUnique E.A E.F E.n₁ (Text.canonical l).1 e p = .ok false := by
  unfold makeStep at h
  cases hl : Text.setStrPretty E.R s gen with
  | none => rw [hl] at h; cases h
  | some l =>
    rw [hl] at h
    obtain ⟨t, ht, h⟩ := Res.bind_eq_ok.1 h
    by_cases hp : guardPrec p = false
    · rw [if_pos hp] at h; cases h
    rw [if_neg hp] at h
    have hp' : 2 ≤ p := by simp [guardPrec] at hp; omega
    cases he : E.B.read t p with
    | none => rw [he] at h; cases h
    | some e =>
      rw [he] at h
      obtain ⟨c, hc, h⟩ := Res.bind_eq_ok.1 h
      cases c with
      | false =>
        simp only [if_true] at h
        by_cases ho : p * 2 < 2 ^ 63
        swap
        · rw [if_neg ho] at h; cases h
        rw [if_pos ho] at h
        cases h
        exact ⟨rfl, l, t, e, rfl, ht, hp', he, hc⟩
      | true =>
        simp only [Bool.true_eq_false, if_false] at h
        obtain ⟨f, hf, h⟩ := Res.bind_eq_ok.1 h
        cases h

/-- what the field returned by an iteration is -/
lemma made {E : MakeEnv} (hB : E.B.Wf) {gen t : List Char} {p : ℤ} {l : List ℚ} {e : Ball}
    {f : Field} (he : E.B.read t p = some e)
    (hf : renfInit E.A E.F E.nd E.n₁ E.n₂ (Text.canonical l).1 e p = .ok f) :
    MadeFrom (Text.polyOf l) gen e p ⟨f, (Text.canonical l).2, gen⟩ := by
  obtain ⟨hc, hP⟩ := Text.canonical_spec l
  obtain ⟨h1, h2⟩ := renfInit_cases hf
  have hnf : f.nf = ⟨(Text.canonical l).1⟩ ∧ f.prec = p := by
    rcases h2 with ⟨-, rfl⟩ | ⟨-, h⟩
    · exact ⟨rfl, rfl⟩
    · obtain ⟨cp, b, -, -, rfl, -⟩ := refineEmbedding_cases h
      exact ⟨rfl, rfl⟩
  have hlen : 2 ≤ (Text.canonical l).1.length := by
    by_contra hlt
    unfold checkUnique at h1
    rw [if_pos (by omega)] at h1
    cases h1
  have hne : (Text.canonical l).1 ≠ [] := by intro h; rw [h] at hlen; simp at hlen
  have hlead : (Text.canonical l).1.getLastD 0 ≠ 0 := by
    rw [List.getLastD_eq_getLast?, List.getLast?_eq_getLast_of_ne_nil hne]
    exact hc.lead hne
  obtain ⟨h3, h4, h5⟩ := checkUnique_true hlead (fun m r h => hB t p m r (h ▸ he)) h1
  have hroot := fun x => hP ▸ root_iff (n := (Text.canonical l).1) hc.den_pos.ne' x
  constructor
  · unfold NamedField.poly; rw [hnf.1]; exact hP
  · rw [hnf.1]; exact hc
  · rfl
  · exact hnf.2
  · exact fun x hx y hy hx' hy' => h3 x hx y hy ((hroot x).1 hx') ((hroot y).1 hy')
  · by_cases h : (Text.canonical l).1.length = 2
    · obtain ⟨x, hx, hr⟩ := h4 h
      exact .inl ⟨x, hx, (hroot x).2 hr⟩
    · obtain ⟨a, b, hi, x, k1, k2, hr⟩ := h5 h
      exact .inr ⟨a, b, hi, x, k1, k2, (hroot x).2 hr⟩

lemma ok_of_irreducible {n : List ℤ} {d : ℤ} (hc : (⟨n, d⟩ : QPoly).Canonical)
    (hi : Irreducible (⟨n, d⟩ : QPoly).toPolyQ) : (⟨n⟩ : Nf).Ok := by
  have hd : (d : ℚ) ≠ 0 := by exact_mod_cast hc.den_pos.ne'
  have hu : IsUnit (C (1 / (d : ℚ)) : ℚ[X]) := isUnit_C.2 (IsUnit.mk0 _ (one_div_ne_zero hd))
  have hirr : Irreducible (toPolyQ n) := (irreducible_isUnit_mul hu).1 hi
  have h2 : 2 ≤ n.length := by
    by_contra hlt
    have : ∃ c, toPolyQ n = C c := by
      match n, hlt with
      | [], _ => exact ⟨0, by simp [toPolyQ]⟩
      | [a], _ => exact ⟨a, by simp [toPolyQ]⟩
      | a :: b :: l, h => simp at h
    obtain ⟨c, hc'⟩ := this
    rw [hc'] at hirr
    by_cases h0 : c = 0
    · rw [h0, C_0] at hirr; exact not_irreducible_zero hirr
    · exact hirr.not_isUnit (isUnit_C.2 (IsUnit.mk0 _ h0))
  refine ⟨h2, ?_, hirr⟩
  have hne : n ≠ [] := by intro h; rw [h] at h2; simp at h2
  show n.getLastD 0 ≠ 0
  rw [List.getLastD_eq_getLast?, List.getLast?_eq_getLast_of_ne_nil hne]
  exact hc.lead hne

/-- the root is kept -/
lemma made_keeps {E : MakeEnv} {t : List Char} {p : ℤ} {l : List ℚ} {e : Ball}
    {f : Field} (hf : renfInit E.A E.F E.nd E.n₁ E.n₂ (Text.canonical l).1 e p = .ok f)
    (hi : Irreducible (Text.polyOf l)) {α : ℝ} (hα : aeval α (Text.polyOf l) = 0) (he : α ∈ e)
    (hs : Secure E.A (Text.canonical l).1 α E.n₂ e) : α ∈ f.emb := by
  obtain ⟨hc, hP⟩ := Text.canonical_spec l
  rw [← hP] at hi hα
  exact (renfInit_keeps (ok_of_irreducible hc hi) ((root_iff hc.den_pos.ne' α).1 hα) he hs hf).2.1

/-! ## Integer polynomials -/

lemma getD_rdrop (l : List ℤ) (j : ℕ) : (l.rdropWhile (· == 0)).getD j 0 = l.getD j 0 := by
  have h : ∀ x ∈ l.rtakeWhile (· == 0), x = 0 := fun x hx => by
    simpa using List.mem_rtakeWhile_imp hx
  have e := List.rdropWhile_append_rtakeWhile (p := (· == (0 : ℤ))) (l := l)
  conv_rhs => rw [← e]
  by_cases hj : j < (l.rdropWhile (· == 0)).length
  · rw [List.getD_append _ _ _ _ hj]
  · rw [List.getD_eq_default _ _ (by omega), List.getD_append_right _ _ _ _ (by omega)]
    by_cases hk : j - (l.rdropWhile (· == 0)).length < (l.rtakeWhile (· == 0)).length
    · rw [List.getD_eq_getElem _ _ hk]; exact (h _ (List.getElem_mem hk)).symm
    · rw [List.getD_eq_default _ _ (by omega)]

lemma getD_setCoeffZ (p : List ℤ) (i : ℕ) (c : ℤ) (j : ℕ) :
    (setCoeffZ p i c).getD j 0 = if j = i then c else p.getD j 0 := by
  unfold setCoeffZ
  rw [getD_rdrop]
  simp only [List.getD_eq_getElem?_getD, List.getElem?_set, List.length_append, List.length_replicate]
  by_cases h : i = j
  · subst h
    rw [if_pos rfl, if_pos (by omega), if_pos rfl]; rfl
  · rw [if_neg h, if_neg (Ne.symm h)]
    by_cases hj : j < p.length
    · rw [List.getElem?_append_left hj]
    · rw [List.getElem?_append_right (by omega), List.getElem?_eq_none (l := p) (by omega),
        List.getElem?_replicate]
      split_ifs <;> rfl

lemma getD_setCoeffs (l : List ℤ) : ∀ (n : ℕ) (p : List ℤ) (j : ℕ),
    (setCoeffs l n p).getD j 0 = if j < n then l.getD j 0 else p.getD j 0
  | 0, p, j => by simp [setCoeffs]
  | n + 1, p, j => by
    rw [setCoeffs, getD_setCoeffs l n, getD_setCoeffZ]
    by_cases h1 : j < n
    · rw [if_pos h1, if_pos (by omega)]
    · rw [if_neg h1]
      by_cases h2 : j = n
      · rw [if_pos h2, if_pos (by omega), h2]
      · rw [if_neg h2, if_neg (by omega)]

/-- the coefficients of the result -/
theorem setStrPrettyZ_some {R : List Char → Option ℚ} {p : List ℤ} {s var : List Char}
    (hv : Text.IsVarname var) {P : ℚ[X]} (hP : Text.Reads R var s P)
    (hint : ∀ i, ∃ c : ℤ, P.coeff i = c) :
    ∃ r, setStrPrettyZ R p s var = some r ∧
      ∀ i, (r.getD i 0 : ℚ) = if i ≤ P.natDegree ∧ P ≠ 0 then P.coeff i else p.getD i 0 := by
  obtain ⟨l, hl, rfl⟩ := (Text.setStrPretty_iff R s var P).2 ⟨hv, hP⟩
  obtain ⟨hc, h2⟩ := Text.canonical_spec l
  have hd0 : ((Text.canonical l).2 : ℚ) ≠ 0 := by exact_mod_cast hc.den_pos.ne'
  have hco : ∀ i, (((Text.canonical l).1.getD i 0 : ℤ) : ℚ) =
      (Text.canonical l).2 * (Text.polyOf l).coeff i := by
    intro i
    rw [← h2, QPoly.toPolyQ, coeff_C_mul, coeff_toPolyQ]
    field_simp
  have hden : (Text.canonical l).2 = 1 := by
    have hu := hc.coprime (Text.canonical l).2 dvd_rfl (by
      intro a ha
      obtain ⟨i, hi, rfl⟩ := List.mem_iff_getElem.1 ha
      obtain ⟨c, hc'⟩ := hint i
      have := hco i
      rw [List.getD_eq_getElem _ _ hi, hc'] at this
      exact ⟨c, by exact_mod_cast this⟩)
    rcases Int.isUnit_iff.1 hu with h | h
    · exact h
    · have := hc.den_pos
      simp only at this h
      omega
  simp only [hden, Int.cast_one, one_mul] at hco
  refine ⟨setCoeffs (Text.canonical l).1 (Text.canonical l).1.length p, ?_, fun i => ?_⟩
  · unfold setStrPrettyZ; rw [hl]; simp [hden]
  · rw [getD_setCoeffs]
    have hiff : i < (Text.canonical l).1.length ↔ i ≤ (Text.polyOf l).natDegree ∧ Text.polyOf l ≠ 0 := by
      constructor
      · intro hi
        have hne : (Text.canonical l).1 ≠ [] := by intro h; rw [h] at hi; simp at hi
        have hlast := hc.lead hne
        simp only at hlast
        rw [List.getLast_eq_getElem] at hlast
        have h3 := hco ((Text.canonical l).1.length - 1)
        rw [List.getD_eq_getElem _ _ (by omega)] at h3
        have h4 : (Text.polyOf l).coeff ((Text.canonical l).1.length - 1) ≠ 0 := by
          rw [← h3]; exact_mod_cast hlast
        refine ⟨?_, fun h0 => h4 (by rw [h0]; simp)⟩
        have := le_natDegree_of_ne_zero h4
        omega
      · rintro ⟨h1, h0⟩
        by_contra hlt
        have h3 := hco (Text.polyOf l).natDegree
        rw [List.getD_eq_default _ _ (by omega)] at h3
        exact leadingCoeff_ne_zero.2 h0 (by rw [leadingCoeff, ← h3]; simp)
    by_cases hi : i < (Text.canonical l).1.length
    · rw [if_pos hi, if_pos (hiff.1 hi), hco]
    · rw [if_neg hi, if_neg (fun h => hi (hiff.2 h))]

end EAntic
