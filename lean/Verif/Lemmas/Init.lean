import Verif.Model.Init
import Verif.Lemmas.Scale01
import Verif.Lemmas.Isolate
import Verif.Lemmas.FieldInst

/-! # Soundness of the construction of fields -/

namespace EAntic
open Polynomial

theorem arbSgn2_pos {b : Ball} {x : ℝ} (hx : x ∈ b) (h : arbSgn2 b = 1) : 0 < x := by
  unfold arbSgn2 at h
  split_ifs at h with h1 h2
  · exact Ball.isPositive_spec hx h1
  · simp at h

theorem arbSgn2_neg {b : Ball} {x : ℝ} (hx : x ∈ b) (h : arbSgn2 b = -1) : x < 0 := by
  unfold arbSgn2 at h
  split_ifs at h with h1 h2
  exact Ball.isNegative_spec hx h2

theorem arbSgn2_cases (b : Ball) : arbSgn2 b = 1 ∨ arbSgn2 b = 0 ∨ arbSgn2 b = -1 := by
  unfold arbSgn2
  split_ifs <;> simp

/-- opposite signs at two points give a root strictly between them -/
theorem root_between {P : ℝ[X]} {l u : ℝ} (hlu : l ≤ u)
    (h : 0 < P.eval l ∧ P.eval u < 0 ∨ P.eval l < 0 ∧ 0 < P.eval u) :
    ∃ x, l < x ∧ x < u ∧ P.IsRoot x := by
  have hc : ContinuousOn (fun x : ℝ => P.eval x) (Set.Icc l u) := P.continuous.continuousOn
  rcases h with ⟨h1, h2⟩ | ⟨h1, h2⟩
  · obtain ⟨x, hx, h⟩ := intermediate_value_Ioo' hlu hc ⟨h2, h1⟩
    exact ⟨x, hx.1, hx.2, h⟩
  · obtain ⟨x, hx, h⟩ := intermediate_value_Ioo hlu hc ⟨h1, h2⟩
    exact ⟨x, hx.1, hx.2, h⟩

theorem rootCount_one {P : ℝ[X]} (hP : P ≠ 0) {S : Set ℝ} (h : rootCount P S = 1) {x y : ℝ}
    (hx : x ∈ S) (hxr : P.IsRoot x) (hy : y ∈ S) (hyr : P.IsRoot y) : x = y := by
  by_contra hne
  have h1 : 0 < rootCount P ({x} : Set ℝ) := (rootCount_pos_iff hP _).2 ⟨x, rfl, hxr⟩
  have h2 : 0 < rootCount P ({y} : Set ℝ) := (rootCount_pos_iff hP _).2 ⟨y, rfl, hyr⟩
  have hd : Disjoint ({x} : Set ℝ) {y} := by simpa using hne
  have h3 := rootCount_union P hd
  have h4 : rootCount P ({x} ∪ {y}) ≤ rootCount P S := rootCount_mono P (by
    rintro z (rfl | rfl)
    · exact hx
    · exact hy)
  omega

/-- What a positive answer of `fmpq_poly_check_unique_real_root` means: at most one root in the
ball, and a root between its outward rounded end points (in the ball itself if the polynomial is
linear). -/
theorem checkUnique_true {A : ArbOps} {F : Scale2} {n : ℕ} {pol : List ℤ} {a : Ball} {p : ℤ}
    (hlead : pol.getLastD 0 ≠ 0) (hrad : ∀ m r, a = .fin m r → 0 ≤ r)
    (h : checkUnique A F n pol a p = .ok true) :
    (∀ x ∈ a, ∀ y ∈ a, (toPoly pol).IsRoot x → (toPoly pol).IsRoot y → x = y) ∧
    (pol.length = 2 → ∃ x ∈ a, (toPoly pol).IsRoot x) ∧
    (pol.length ≠ 2 → ∃ l u, a.interval p = some (l, u) ∧
      ∃ x : ℝ, (l : ℝ) < x ∧ x < u ∧ (toPoly pol).IsRoot x) := by
  have hP : toPoly pol ≠ 0 := toPoly_ne_of_lead hlead
  unfold checkUnique at h
  by_cases h1 : pol.length < 2
  · simp [h1] at h
  rw [if_neg h1] at h
  by_cases h2 : pol.length = 2
  · -- linear
    rw [if_pos h2] at h
    match pol, h2 with
    | [c, d], _ =>
      have hd : (d : ℝ) ≠ 0 := by
        have : d ≠ 0 := by simpa [List.getLastD] using hlead
        exact_mod_cast this
      have heq : ∀ x : ℝ, (toPoly [c, d]).IsRoot x ↔ x = -((c : ℝ) / d) := by
        intro x
        simp only [toPoly, IsRoot.def, eval_add, eval_C, eval_mul, eval_X, mul_zero, add_zero]
        constructor
        · intro h; field_simp; linarith
        · rintro rfl; field_simp; ring
      simp only [Res.ok.injEq] at h
      have hm := Ball.containsQ_spec.1 h
      refine ⟨fun x _ y _ hx hy => ?_, fun _ => ⟨_, hm, ?_⟩, fun h => absurd rfl h⟩
      · rw [(heq x).1 hx, (heq y).1 hy]
      · rw [heq]; simp [List.getD]
  · rw [if_neg h2] at h
    by_cases h3 : guardPrec p = false
    · simp [h3] at h
    rw [if_neg h3] at h
    have hp : 2 ≤ p := by simp [guardPrec] at h3; omega
    cases hi : a.interval p with
    | none => rw [hi] at h; simp at h
    | some lu =>
      obtain ⟨l, u⟩ := lu
      rw [hi] at h
      simp only at h
      have hmid : ∃ m : ℝ, m ∈ a := by
        cases a with
        | whole => exact ⟨0, trivial⟩
        | fin m r =>
          have : (0 : ℝ) ≤ r := by exact_mod_cast hrad m r rfl
          exact ⟨m, by rw [Ball.mem_fin]; constructor <;> linarith⟩
      have hlu : (l : ℝ) ≤ u := by
        obtain ⟨m, hm⟩ := hmid
        have := Ball.interval_spec hi hm
        linarith [this.1, this.2]
      have hl := evalArb_mem A (p := 2 * p) (by omega) (Ball.mem_exact_self l) pol
      have hr := evalArb_mem A (p := 2 * p) (by omega) (Ball.mem_exact_self u) pol
      by_cases h4 : arbSgn2 (evalArb A pol (Ball.exact l) (2 * p)) *
          arbSgn2 (evalArb A pol (Ball.exact u) (2 * p)) = -1
      swap
      · rw [if_neg h4] at h; simp at h
      rw [if_pos h4] at h
      have hsg : 0 < (toPoly pol).eval (l : ℝ) ∧ (toPoly pol).eval (u : ℝ) < 0 ∨
          (toPoly pol).eval (l : ℝ) < 0 ∧ 0 < (toPoly pol).eval (u : ℝ) := by
        rcases arbSgn2_cases (evalArb A pol (Ball.exact l) (2 * p)) with e | e | e <;>
        rcases arbSgn2_cases (evalArb A pol (Ball.exact u) (2 * p)) with e' | e' | e' <;>
        rw [e, e'] at h4 <;> try (norm_num at h4; done)
        · exact .inl ⟨arbSgn2_pos hl e, arbSgn2_neg hr e'⟩
        · exact .inr ⟨arbSgn2_neg hl e, arbSgn2_pos hr e'⟩
      refine ⟨?_, fun h => absurd h h2, fun _ => ⟨l, u, rfl, root_between hlu hsg⟩⟩
      by_cases h5 : (evalArb A (derivList pol) a p).containsZero = false
      · -- derivative without zero
        intro x hx y hy hxr hyr
        by_contra hne
        obtain ⟨ξ, hξ, e⟩ := mean_value (toPoly pol) x y
        rw [show (toPoly pol).eval x = 0 from hxr, show (toPoly pol).eval y = 0 from hyr,
          sub_zero] at e
        have hξa : ξ ∈ a := by
          cases a with
          | whole => trivial
          | fin m r =>
            rw [Ball.mem_fin] at *
            rcases Set.mem_uIcc.1 hξ with ⟨k1, k2⟩ | ⟨k1, k2⟩ <;>
              constructor <;> linarith [hx.1, hx.2, hy.1, hy.2]
        have hd := evalArb_mem A hp hξa (derivList pol)
        rw [toPoly_derivList] at hd
        have : (derivative (toPoly pol)).eval ξ = 0 := by
          rcases mul_eq_zero.1 e.symm with k | k
          · exact k
          · exact absurd (by linarith : x = y) hne
        rw [this] at hd
        rw [Ball.containsZero_of_mem hd] at h5
        exact absurd h5 (by simp)
      · -- counting
        rw [if_neg h5] at h
        have hlu' : l ≠ u := by
          rintro rfl
          rcases hsg with ⟨k1, k2⟩ | ⟨k1, k2⟩ <;> linarith
        obtain ⟨pol2, hs, h⟩ := Res.bind_eq_ok.1 h
        obtain ⟨k, hk, h⟩ := Res.bind_eq_ok.1 h
        simp only [Res.ok.injEq, decide_eq_true_eq] at h
        subst h
        obtain ⟨r', e1, -, c, hc, e2⟩ := scale01_spec hP hlu'
        rw [hs] at e1
        simp only [Res.ok.injEq] at e1
        have hd : (u : ℝ) - l ≠ 0 := by
          intro h0; exact hlu' (by have : (l : ℝ) = u := by linarith
                                   exact_mod_cast this)
        have hP2 : toPoly pol2 ≠ 0 := by
          rw [e1, e2]; exact mul_ne_zero (C_ne_zero.2 hc) (comp_aff_ne_zero hP hd _)
        unfold numRealRoots01Vca at hk
        obtain ⟨r, hr, hk⟩ := Res.bind_eq_ok.1 hk
        simp only [Res.ok.injEq] at hk
        have hcnt := (isolate01_ok F n pol2 hP2 r hr).count
        rw [hk, scale01_rootCount hP hlu' hs (Set.Ico 0 1) (Set.Ico (l : ℝ) u)] at hcnt
        · have hmem : ∀ x ∈ a, (toPoly pol).IsRoot x → x ∈ Set.Ico (l : ℝ) u := by
            intro x hx hxr
            obtain ⟨k1, k2⟩ := Ball.interval_spec hi hx
            refine ⟨k1, lt_of_le_of_ne k2 ?_⟩
            rintro rfl
            rw [show (toPoly pol).eval (u : ℝ) = 0 from hxr] at hsg
            rcases hsg with ⟨k1, k2⟩ | ⟨k1, k2⟩ <;> linarith
          intro x hx y hy hxr hyr
          exact rootCount_one hP hcnt (hmem x hx hxr) hxr (hmem y hy hyr) hyr
        · have hpos : (0 : ℝ) < u - l := lt_of_le_of_ne (by linarith) (Ne.symm hd)
          intro x
          simp only [Set.mem_Ico]
          constructor
          · rintro ⟨k1, k2⟩
            constructor
            · by_contra hx; nlinarith
            · by_contra hx; nlinarith
          · rintro ⟨k1, k2⟩
            constructor <;> nlinarith

/-- A field accepted and refined by `renf_init`, if the given ball contains the root. -/
theorem renfInit_cases {A : ArbOps} {F : Scale2} {nd : Bool} {n₁ n₂ : ℕ} {pol : List ℤ} {emb : Ball}
    {prec : ℤ} {f : Field} (h : renfInit A F nd n₁ n₂ pol emb prec = .ok f) :
    checkUnique A F n₁ pol emb prec = .ok true ∧
      (pol.length = 2 ∧ f = ⟨⟨pol⟩, emb, prec, false⟩ ∨
       pol.length ≠ 2 ∧ refineEmbedding A nd n₂ ⟨⟨pol⟩, emb, prec, false⟩ prec = .ok f) := by
  unfold renfInit at h
  obtain ⟨c, hc, h⟩ := Res.bind_eq_ok.1 h
  cases c with
  | false => simp at h
  | true =>
    refine ⟨hc, ?_⟩
    simp only [Bool.true_eq_false, if_false, Nf.isLinear] at h
    by_cases h2 : pol.length = 2
    · simp [h2] at h
      exact .inl ⟨h2, h.symm⟩
    · simp [h2] at h
      exact .inr ⟨h2, h⟩

/-- One refinement with at most `n` iterations, when an intersection may exceed the old ball by the
factor `g`. -/
theorem refineEmbedding_grow {K : Nf} (hK : K.Ok) {α : ℝ} (hα : K.IsRoot α) {A : ArbOps} {g : ℚ}
    (hg1 : 1 ≤ g) (hg : A.InterGrow g) {nd : Bool} {n : ℕ} {f f' : Field} {p : ℤ} (hnf : f.nf = K)
    (he : α ∈ f.emb) (hap : ∀ m r, f.emb = .fin m r → Apart K.pol α (g ^ n * r))
    (h : refineEmbedding A nd n f p = .ok f') :
    α ∈ f'.emb ∧ p ≤ f'.emb.relAccuracyBits ∧ f' = { f with emb := f'.emb } := by
  obtain ⟨cp, b, hcp, hl, rfl, -⟩ := refineEmbedding_cases h
  rw [hnf] at hcp hl
  have hd := deriv_ne_zero hK hα
  by_cases hu : ∀ β, (toPoly K.pol).IsRoot β → β = α
  · obtain ⟨h1, h2⟩ := refineLoop_unique hα hd hu he hl
    exact ⟨h1, h2, rfl⟩
  · have h3 : 3 ≤ K.pol.length := by
      have := hK.two_le
      by_contra hc
      exact hu fun β hβ => linear_unique hK (by omega) hα hβ
    obtain ⟨m, r, he', hr, hp⟩ := compPrec_spec h3 (coeff_zero_ne hK h3) he hcp
    have hap' := hap m r he'
    rw [he'] at hl he
    obtain ⟨h1, h2, -⟩ := refineLoop_apart hg1 hg h3 (coeff_zero_ne hK h3) hα hd
      n m r cp b hr he hp hap' hl
    exact ⟨h1, h2, rfl⟩

theorem refineEmbedding_secure {K : Nf} (hK : K.Ok) {α : ℝ} (hα : K.IsRoot α) {A : ArbOps}
    {nd : Bool} {n : ℕ} {f f' : Field} {p : ℤ} (hnf : f.nf = K) (he : α ∈ f.emb)
    (hs : Secure A K.pol α n f.emb) (h : refineEmbedding A nd n f p = .ok f') :
    α ∈ f'.emb ∧ p ≤ f'.emb.relAccuracyBits ∧ f' = { f with emb := f'.emb } := by
  rcases hs with hu | ⟨g, hg1, hg, hap⟩ | ⟨hg, c, k, hin, hcell⟩
  · obtain ⟨cp, b, hcp, hl, rfl, -⟩ := refineEmbedding_cases h
    rw [hnf] at hcp hl
    obtain ⟨h1, h2⟩ := refineLoop_unique hα (deriv_ne_zero hK hα) hu he hl
    exact ⟨h1, h2, rfl⟩
  · exact refineEmbedding_grow hK hα hg1 hg hnf he hap h
  · by_cases hu : ∀ β, (toPoly K.pol).IsRoot β → β = α
    · obtain ⟨cp, b, hcp, hl, rfl, -⟩ := refineEmbedding_cases h
      rw [hnf] at hcp hl
      obtain ⟨h1, h2⟩ := refineLoop_unique hα (deriv_ne_zero hK hα) hu he hl
      exact ⟨h1, h2, rfl⟩
    · have h3 : 3 ≤ K.pol.length := by
        have := hK.two_le
        by_contra hc
        exact hu fun β hβ => linear_unique hK (by omega) hα hβ
      obtain ⟨cp, b, hcp, hl, rfl, -⟩ := refineEmbedding_cases h
      rw [hnf] at hcp hl
      obtain ⟨m, r, he', hr, hp⟩ := compPrec_spec h3 (coeff_zero_ne hK h3) he hcp
      have hin' := hin m r he'
      rw [he'] at hl he
      obtain ⟨h1, h2, -⟩ := refineLoop_cell hg h3 (coeff_zero_ne hK h3) hα (deriv_ne_zero hK hα)
        hcell n m r cp b hr he hp hin' hl
      exact ⟨h1, h2, rfl⟩

/-- `renf_init` keeps a root that is contained in the given ball. -/
theorem renfInit_keeps {A : ArbOps} {F : Scale2} {nd : Bool} {n₁ n₂ : ℕ} {pol : List ℤ} {emb : Ball}
    {prec : ℤ} {f : Field} (hK : (⟨pol⟩ : Nf).Ok) {α : ℝ} (hα : (toPoly pol).IsRoot α) (he : α ∈ emb)
    (hs : Secure A pol α n₂ emb)
    (h : renfInit A F nd n₁ n₂ pol emb prec = .ok f) :
    f.nf = ⟨pol⟩ ∧ α ∈ f.emb ∧ f.prec = prec ∧ f.immutable = false ∧
      (pol.length ≠ 2 → prec ≤ f.emb.relAccuracyBits) := by
  obtain ⟨-, ⟨h2, rfl⟩ | ⟨h2, h⟩⟩ := renfInit_cases h
  · exact ⟨rfl, he, rfl, rfl, fun h => absurd h2 h⟩
  · obtain ⟨a, b, c⟩ := refineEmbedding_secure (K := ⟨pol⟩) hK hα rfl he hs h
    rw [c]
    exact ⟨rfl, a, rfl, rfl, fun _ => b⟩

theorem initAll_forall {A : ArbOps} {F : Scale2} {nd : Bool} {n₁ n₂ : ℕ} {pol : List ℤ} {prec : ℤ} :
    ∀ {Is : List (ℤ × ℤ)} {fs : List Field}, initAll A F nd n₁ n₂ pol prec Is = .ok fs →
      List.Forall₂ (fun I f => renfInit A F nd n₁ n₂ pol (embeddingBall prec I) prec = .ok f) Is fs
  | [], fs, h => by
    simp only [initAll, Res.ok.injEq] at h
    rw [← h]; exact .nil
  | I :: Is, fs, h => by
    unfold initAll at h
    obtain ⟨f, hf, h⟩ := Res.bind_eq_ok.1 h
    obtain ⟨fs', hfs, h⟩ := Res.bind_eq_ok.1 h
    simp only [Res.ok.injEq] at h
    rw [← h]
    exact .cons hf (initAll_forall hfs)

/-- integers below `2^p` are not rounded -/
theorem arfRound_small {rnd : Rnd} {p : ℤ} {n : ℤ} (h : |(n : ℚ)| < 2 ^ p) :
    arfRound rnd p (n : ℚ) = n := by
  by_cases h0 : (n : ℚ) = 0
  · rw [h0, arfRound_zero]
  have hb : bexp (n : ℚ) ≤ p := by
    by_contra hc
    have h1 := bexp_lower h0
    have h2 : (2 : ℚ) ^ p ≤ 2 ^ (bexp (n : ℚ) - 1) := zpow_le_zpow_right₀ (by norm_num) (by omega)
    linarith
  unfold arfRound
  rw [if_neg h0]
  simp only
  have e : (n : ℚ) / 2 ^ (bexp (n : ℚ) - p) = ((n * 2 ^ (p - bexp (n : ℚ)).toNat : ℤ) : ℚ) := by
    push_cast
    rw [← zpow_natCast, Int.toNat_of_nonneg (by omega), div_eq_mul_inv, ← zpow_neg]
    congr 2; ring
  rw [e, roundInt_int, ← e, div_mul_cancel₀ _ (two_zpow_posQ _).ne']

theorem mem_embeddingBall {prec : ℤ} {I : ℤ × ℤ} (h : |2 * (I.1 : ℚ) + 1| < 2 ^ prec) {x : ℝ} :
    x ∈ embeddingBall prec I ↔ (I.1 : ℝ) * 2 ^ I.2 ≤ x ∧ x ≤ ((I.1 : ℝ) + 1) * 2 ^ I.2 := by
  unfold embeddingBall
  rw [arfRound_small (by push_cast; rw [mul_comm]; exact h), Ball.mem_fin]
  push_cast
  have e : (2 : ℝ) ^ I.2 = 2 ^ (I.2 - 1) * 2 := by
    rw [← zpow_add_one₀ (by norm_num)]; congr 1; ring
  rw [e]
  constructor <;> rintro ⟨h1, h2⟩ <;> constructor <;> linarith

end EAntic
