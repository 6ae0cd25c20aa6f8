import Verif.Lemmas.EndsDiv
import Verif.Lemmas.EndsGetD
import Verif.Props.RefineTerm
import Verif.Spec.Near

/-! # Calls that end, with the modelled refinement -/

namespace EAntic
open Polynomial

variable {K : Nf} {α : ℝ} {I : Field → Prop} {v : Reg → ℝ} {A : ArbOps} {N : NfOps K}
  {R : ℕ → Field → ℤ → Res Field} {s : Mem} {V : Prop}

theorem getArb_ends (hA : A.Convergent) (hE : ∀ k, FieldInv (envs A N R k) α I)
    (hR : RefinesOr R I) (hlin : K.isLinear = false) {a : Reg} (hl : LegalAt K α I (v a)) {q : ℤ}
    (hq : 0 ≤ q) (hq' : q + 2 < 2 ^ 63 - 1) (hs : Rep K α I v s) :
    Ends V (fun k => (envs A N R k).getArb a q) s fun b s' => Rep K α I v s' ∧ v a ∈ b := by
  refine ((?_ : Ends V _ s fun _ _ => True).and_hoare (fun k => getArb_spec (hE k) a q) hs).mono
    fun z s' h => h.2
  have hf := (hE 0).prec hs.inv
  have hg : guardPrec (q + 2) = true := by simp [guardPrec]; omega
  unfold Env.getArb
  refine Ends.read (Ends.ite (fun _ => Ends.pure' trivial) fun hz => Ends.ite (fun _ => ?_) fun _ => ?_)
  · simp only [hg, reduceIte, envs_A]
    exact Ends.pure' trivial
  have hv : (s.heap a).elem.val α ≠ 0 := fun h => hz ((isZero_iff (hE 0).ok (hE 0).root (hs.wf a)).2 h)
  refine (getCond_ends hl hs rfl hf).bind ?_
  rintro c t ⟨ht, hc⟩
  rw [ht]
  refine startPrec_ends.bind ?_
  rintro p t ⟨ht, hp⟩
  rw [ht]
  rw [← hp] at hc
  have hp2 : 2 ≤ p := by rw [hp]; exact hf.trans (le_max_left _ _)
  obtain ⟨ε, hε, H⟩ := relErrorBits_conv hv hq'
  obtain ⟨P, HP⟩ := conv_eval (α := α) (N := N) (R := R) hA (hs.wf a) hlin c hε
  simp only [getArbStep_eq _ a hq c, envs_A]
  refine (evalWatch_ends hE hR (e := (s.heap a).elem) ⟨P, ?_⟩ hp2 hc hs rfl).mono fun _ _ _ => trivial
  intro f p hp hw
  have := H _ (HP f p hp hw)
  rw [if_pos (by omega)]
  exact ⟨_, rfl⟩

/-- The condition number of an element of moderate size is computed. -/
theorem condNumber_legal {l : List ℤ} {m r : ℚ} (hm : α ∈ Ball.fin m r) (hr : (r : ℝ) ≤ 1 / 2)
    {k cp p : ℤ} (hcp : 3 ≤ cp) (hp : p ≤ 2 ^ 63) (h1 : 2 ^ (2 - p) ≤ (toPoly (l.map (|·|))).eval |α|)
    (hk : (toPoly (l.map (|·|))).eval (2 * (|α| + 1)) ≤ 2 ^ k) (hk2 : k + 1 < 2 ^ 63) :
    ∃ c, condNumber l (.fin m r) cp = some c ∧ 2 ≤ p + c := by
  have hl : l ≠ [] := by
    rintro rfl
    have : (0 : ℝ) < 2 ^ (2 - p) := by positivity
    simp [toPoly] at h1
    linarith
  have hr0 := Ball.rad_nonneg hm
  obtain ⟨a, ha⟩ : ∃ a, a = arfRound .up cp (|m| + r) := ⟨_, rfl⟩
  have ha0 : 0 ≤ a := by rw [ha]; exact arfRound_nonneg _ _ (by positivity)
  have ha1 : a ≤ 5 / 4 * (|m| + r) := by rw [ha]; exact arfRound_up_le' hcp (by positivity)
  have hma := mid_abs_le hm
  have hαa : |α| ≤ a := by
    have h1 := le_arfRound_up cp (x := |m| + r) (by positivity)
    rw [← ha] at h1
    have h2 : ((|m| + r : ℚ) : ℝ) ≤ a := Rat.cast_le.2 h1
    push_cast at h2
    have h3 := abs_sub_abs_le_abs_sub α (m : ℝ)
    rw [abs_sub_comm] at h3
    linarith
  have ha2 : (25 / 16 * a : ℝ) ≤ 2 * (|α| + 1) := by
    have h1 : (a : ℝ) ≤ ((5 / 4 * (|m| + r) : ℚ) : ℝ) := Rat.cast_le.2 ha1
    push_cast at h1
    have h2 := abs_sub_abs_le_abs_sub (m : ℝ) α
    have h3 := abs_nonneg α
    linarith
  have hS := condSum_le hcp ha0 l
  have hS' : (condSum cp a l : ℝ) ≤ 5 / 4 * 2 ^ k := by
    have h1 : (condSum cp a l : ℝ) ≤
        ((5 / 4 * (toPolyQ (l.map (|·|))).eval (25 / 16 * a) : ℚ) : ℝ) := Rat.cast_le.2 hS
    have h2 : (((toPolyQ (l.map (|·|))).eval (25 / 16 * a) : ℚ) : ℝ) =
        (toPoly (l.map (|·|))).eval (25 / 16 * (a : ℝ)) := by
      rw [toPoly_eq_map, show (25 / 16 * (a : ℝ)) = algebraMap ℚ ℝ (25 / 16 * a) by
        rw [eq_ratCast]; push_cast; rfl, eval_map_algebraMap, aeval_algebraMap_apply]
      simp
    rw [Rat.cast_mul, h2] at h1
    have h3 := abs_eval_mono l (s := 25 / 16 * a) (by
      have : (0 : ℝ) ≤ a := by exact_mod_cast ha0
      linarith) ha2
    push_cast at h1
    linarith
  have hL := condSum_ge (by omega : 2 ≤ cp) hαa l 2 (.inr rfl)
  obtain ⟨S, hSd⟩ : ∃ S, S = condSum cp a l := ⟨_, rfl⟩
  rw [← hSd] at hL hS'
  have t0 : (0 : ℚ) < 2 ^ (1 - p) := by positivity
  have h12 : (2 : ℚ) ^ (1 - p) ≤ S := by
    have e : (2 : ℝ) ^ (2 - p) = 2 * 2 ^ (1 - p) := by
      rw [show 2 - p = 1 + (1 - p) by ring, zpow_add₀ (by norm_num), zpow_one]
    have : (2 : ℝ) ^ (1 - p) ≤ S := by linarith
    have : (((2 : ℚ) ^ (1 - p) : ℚ) : ℝ) ≤ S := by push_cast; exact this
    exact_mod_cast this
  have hS0 : S ≠ 0 := by linarith
  have u1 : 2 ≤ p + bexp S := by
    have h3 := bexp_upper S
    rw [abs_of_nonneg (by linarith)] at h3
    have h4 : (2 : ℚ) ^ (1 - p) < 2 ^ bexp S := lt_of_le_of_lt h12 h3
    rw [zpow_lt_zpow_iff_right₀ (by norm_num)] at h4
    omega
  have u2 : bexp S ≤ k + 1 := by
    have h3 := bexp_lower hS0
    rw [abs_of_nonneg (by linarith)] at h3
    have h3' : (((2 : ℚ) ^ (bexp S - 1) : ℚ) : ℝ) ≤ S := Rat.cast_le.2 h3
    push_cast at h3'
    have h4 : (2 : ℝ) ^ (bexp S - 1) < 2 ^ (k + 1) := by
      rw [zpow_add₀ (by norm_num), zpow_one]
      have : (0 : ℝ) < 2 ^ k := by positivity
      linarith
    rw [zpow_lt_zpow_iff_right₀ (by norm_num)] at h4
    omega
  refine ⟨bexp S, ?_, u1⟩
  obtain ⟨c0, l, rfl⟩ := List.exists_cons_of_ne_nil hl
  unfold condNumber condExp
  simp only [absUbound]
  rw [← ha, ← hSd, if_neg hS0, if_pos ⟨by omega, by omega⟩]

theorem legal_of_sizeable {δ : ℝ} (hδ : δ ≤ 1 / 2) {nd : Bool} {p : ℤ} (hp2 : 2 ≤ p) (hp3 : p ≤ 2 ^ 63) {x : ℝ}
    (h : Sizeable K α p x) : LegalAt K α (Start K α δ p nd) x := by
  rintro f ⟨⟨-, m, r, he, hm, hr⟩, hp, -⟩ e hw hv
  rcases h e hw hv with h | ⟨h1, k, hk, hk2⟩
  · exact .inl h
  · obtain ⟨c, hc, hc0⟩ := condNumber_legal (cp := max f.prec 16) hm (hr.trans hδ) (by omega) hp3 h1 hk hk2
    exact .inr ⟨c, by rw [he]; exact hc, by omega⟩

/-- The lower bound of `Sizeable` is automatic if the generator is at least one. -/
theorem sizeable_of_one_le (hK : K.Ok) (hα : K.IsRoot α) (h1 : 1 ≤ |α|) {e : NfElem} (he : e.Wf K)
    {p : ℤ} (hp : 2 ≤ p) {k : ℤ} (hk : (toPoly (e.num.map (|·|))).eval (2 * (|α| + 1)) ≤ 2 ^ k) (hk2 : k + 1 < 2 ^ 63) :
    Sizeable K α p (e.val α) := by
  intro e' he' hv
  obtain ⟨hn, -⟩ := (NfElem.val_inj hK hα he' he).1 hv
  cases hr : e'.isRational K with
  | true => exact .inl rfl
  | false =>
    refine .inr ⟨?_, k, by rw [hn]; exact hk, hk2⟩
    obtain ⟨x, hx, hx0⟩ := exists_mem_ne_zero hK hα he' hr
    have h3 := abs_eval_ge e'.num h1 hx
    have h4 : (1 : ℝ) ≤ |(x : ℝ)| := by exact_mod_cast Int.one_le_abs hx0
    have h5 : (2 : ℝ) ^ (2 - p) ≤ 1 := zpow_le_one_of_nonpos₀ (by norm_num) (by omega)
    linarith

theorem abs_eval_ge_pow (l : List ℤ) {t : ℝ} (h0 : 0 ≤ t) (h1 : t ≤ 1) {c : ℤ} (hc : c ∈ l) :
    (|c| : ℝ) * t ^ (l.length - 1) ≤ (toPoly (l.map (|·|))).eval t := by
  induction l with
  | nil => simp at hc
  | cons c' l ih =>
    simp only [List.map, toPoly, eval_add, eval_C, eval_mul, eval_X]
    have g0 := abs_eval_nonneg l (t := t) h0
    push_cast
    rcases List.mem_cons.1 hc with rfl | h
    · have : t ^ ((c :: l).length - 1) ≤ 1 := pow_le_one₀ h0 h1
      nlinarith [abs_nonneg (c : ℝ), mul_nonneg h0 g0]
    · have := ih h
      have hl : (c' :: l).length - 1 = (l.length - 1) + 1 := by
        have := List.length_pos_of_mem h
        simp; omega
      rw [hl, pow_succ]
      nlinarith [abs_nonneg (c' : ℝ), mul_le_mul_of_nonneg_left this h0]

/-- The lower bound of `Sizeable` holds for all elements if the precision is large enough for the size of the
generator: `2^(2-p) ≤ |α|^(n-1)` in degree `n`. -/
theorem sizeable_of_pow (hK : K.Ok) (hα : K.IsRoot α) {p : ℤ} (hp : 2 ≤ p)
    (h1 : (2 : ℝ) ^ (2 - p) ≤ |α| ^ (K.degree - 1)) {e : NfElem} (he : e.Wf K)
    {k : ℤ} (hk : (toPoly (e.num.map (|·|))).eval (2 * (|α| + 1)) ≤ 2 ^ k) (hk2 : k + 1 < 2 ^ 63) :
    Sizeable K α p (e.val α) := by
  by_cases h : 1 ≤ |α|
  · exact sizeable_of_one_le hK hα h he hp hk hk2
  push Not at h
  intro e' he' hv
  obtain ⟨hn, -⟩ := (NfElem.val_inj hK hα he' he).1 hv
  cases hr : e'.isRational K with
  | true => exact .inl rfl
  | false =>
    refine .inr ⟨?_, k, by rw [hn]; exact hk, hk2⟩
    obtain ⟨x, hx, hx0⟩ := exists_mem_ne_zero hK hα he' hr
    have h3 := abs_eval_ge_pow e'.num (abs_nonneg α) h.le hx
    have h4 : (1 : ℝ) ≤ |(x : ℝ)| := by exact_mod_cast Int.one_le_abs hx0
    have h5 : |α| ^ (K.degree - 1) ≤ |α| ^ (e'.num.length - 1) :=
      pow_le_pow_of_le_one (abs_nonneg α) h.le (by have := NfElem.num_length_le hK he'; omega)
    have h6 : (0 : ℝ) ≤ |α| ^ (e'.num.length - 1) := by positivity
    nlinarith

theorem refineEmbedding_stable {nd : Bool} {n k : ℕ} {f : Field} {p : ℤ} (hk : n ≤ k)
    (h : refineEmbedding A nd n f p ≠ .running) :
    refineEmbedding A nd k f p = refineEmbedding A nd n f p := by
  unfold refineEmbedding at h ⊢
  split_ifs at h ⊢
  · rfl
  · cases hc : compPrec f.nf.pol f.emb (max f.prec 64) with
    | none => rfl
    | some cp =>
      rw [hc] at h
      simp only at h ⊢
      rw [loop_mono n k _ hk]
      intro hr
      rw [hr] at h
      exact h rfl

/-- Near a root, the modelled refinement meets the hypotheses of the theorems on calls that end. -/
theorem near_ends (hK : K.Ok) (h3 : 3 ≤ K.pol.length) (hα : K.IsRoot α) (hs : K.Sane α)
    (hA : A.Tight) :
    ∃ δ : ℝ, 0 < δ ∧ δ ≤ 1 / 2 ∧ ∀ (nd : Bool) (N : NfOps K) (p : ℤ), 2 ≤ p →
      (∀ k, FieldInv (envs A N (refineAt A nd) k) α (Start K α δ p nd)) ∧
        RefinesOr (refineAt A nd) (Start K α δ p nd) := by
  obtain ⟨δ, hδ, hδ2, H⟩ := C55_refine_returns_partial hK h3 hα hs hA
  refine ⟨δ, hδ, hδ2, fun nd N p₀ hp₀ => ⟨fun k => ⟨hK, hα, fun h => h.1.1, fun h => ?_, fun h => hp₀.trans h.2.1, ?_⟩, ?_⟩⟩
  · obtain ⟨⟨-, m, r, e, hm, -⟩, -⟩ := h
    rw [e]; exact hm
  · rintro f p f' ⟨hf, hp, hi⟩ h
    have h' : refineEmbedding A nd k f p = .ok f' := by
      change (refineEmbedding A nd k f p).reportOverflow = .ok f' at h
      cases hr : refineEmbedding A nd k f p <;> rw [hr] at h <;> simp [Res.reportOverflow] at h ⊢
      exact h
    obtain ⟨n, hn⟩ := H f hf nd hi p
    have e := refineEmbedding_mono h' (le_max_left k n)
    obtain ⟨cp, b, -, -, rfl, -⟩ := refineEmbedding_cases h'
    rcases hn _ (le_max_right k n) with ⟨f₁, e1, g, -⟩ | ⟨e1, -⟩
    · rw [e] at e1
      injection e1 with e1
      exact ⟨e1 ▸ g, hp, hi⟩
    · rw [e] at e1
      cases e1
  · rintro f p ⟨hf, hp, hi⟩
    obtain ⟨n, hn⟩ := H f hf nd hi p
    have st : ∀ k, n ≤ k → refineEmbedding A nd k f p = refineEmbedding A nd n f p := by
      intro k hk
      refine refineEmbedding_stable hk ?_
      rcases hn n le_rfl with ⟨f₁, e1, -⟩ | ⟨e1, -⟩ <;> rw [e1] <;> simp
    refine ⟨n, ?_⟩
    rcases hn n le_rfl with ⟨f₁, e1, -, g⟩ | ⟨e1, -⟩
    · exact .inl ⟨f₁, fun k hk => by unfold refineAt; rw [st k hk, e1]; rfl, g⟩
    · exact .inr fun k hk => by unfold refineAt; rw [st k hk, e1]; rfl

end EAntic
