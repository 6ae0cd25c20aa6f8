import Verif.Spec.NearBy
import Verif.Lemmas.RefineTerm2
import Verif.Lemmas.Tight
import Verif.Spec.Near
import Verif.Props.Refinement
import Verif.Props.Elements
import Verif.Lemmas.NfInst
import Verif.Lemmas.RootInst

/-!
# Property C55: refinement returns

`renf_refine_embedding(nf, prec)` repeats Newton and bisection steps until the enclosure of the
generator has `prec` bits.  It must return.  The contract of the ball arithmetic is
`ArbOps.Tight` (`Spec/Tight.lean`): radii are the exact ones up to constants and rounding errors.
-/

namespace EAntic
open Polynomial

/-- C55, the full statement (false at the level of the contract by `C55_counterexample`): refining
the embedding of a field to any precision returns, with an enclosure of that accuracy.  Proved part:
it returns if the given enclosure is small enough, for every precision.  The other outcome, overflow
of the working precision, needs that the given enclosure, or one computed on the way, has more than
`2^61` correct bits.  The new enclosure is again small enough. -/
theorem C55_refine_returns_partial {K : Nf} (hK : K.Ok) (h3 : 3 ≤ K.pol.length) {α : ℝ}
    (hα : K.IsRoot α) (hs : K.Sane α) {A : ArbOps} (hA : A.Tight) :
    ∃ δ : ℝ, 0 < δ ∧ δ ≤ 1 / 2 ∧ ∀ f : Field, f.Near K α δ →
      ∀ nd : Bool, (f.immutable = true → nd = true) → ∀ prec : ℤ, ∃ n, ∀ fuel, n ≤ fuel →
        (∃ f', refineEmbedding A nd fuel f prec = .ok f' ∧ f'.Near K α δ ∧
          prec ≤ f'.emb.relAccuracyBits) ∨
        (refineEmbedding A nd fuel f prec = .ub ∧ Overflows A f prec) := by
  obtain ⟨k, hk, hk2⟩ := hs
  have hq := root_irrational hK h3 hα
  have hα0 : α ≠ 0 := by simpa using hq 0
  have h0 := coeff_zero_ne hK h3
  obtain ⟨δ, hδ, d1, d2, H⟩ := refineLoop_near hA h3 h0 hα0 hq hα (deriv_ne_zero hK hα) hk hk2
  refine ⟨δ, hδ, d1, fun f hf nd him prec => ?_⟩
  obtain ⟨hnf, m, r, he, hm, hr⟩ := hf
  have hr0 : 0 < r := by
    refine lt_of_le_of_ne (Ball.rad_nonneg hm) ?_
    rintro rfl
    rw [Ball.mem_fin] at hm
    exact hq m (by push_cast at hm; linarith [hm.1, hm.2])
  have hi : (f.immutable && !nd) = false := by
    cases hfi : f.immutable with
    | false => rfl
    | true => simp [him hfi]
  cases hcp : compPrec f.nf.pol f.emb (max f.prec 64) with
  | none =>
    refine ⟨0, fun fuel _ => .inr ⟨?_, .inl ?_⟩⟩
    · unfold refineEmbedding
      rw [hi, hcp]
      simp
    · rw [hnf, he] at hcp
      rw [he]
      exact compPrec_none h3 h0 hα0 hm (by linarith) (by linarith) (by omega) hk hk2 hcp
  | some cp =>
    have hcp' := hcp
    rw [hnf, he] at hcp'
    have hαp := abs_pos.2 hα0
    obtain ⟨u1, u2⟩ := ulp_of_compPrec h3 h0 hα0 hm hr0 (by linarith) hcp'
    obtain ⟨n, hn⟩ := H prec m r cp ⟨hm, hr0, hr, u1, u2⟩
    refine ⟨n, fun fuel hf => ?_⟩
    have e : refineEmbedding A nd fuel f prec =
        (match loop (refineStep A K.pol prec) fuel (.fin m r, cp) with
          | .ok b => .ok { f with emb := b }
          | .running => .running
          | .abort => .abort
          | .throw w => .throw w
          | .ub => .ub) := by
      unfold refineEmbedding
      rw [hi, hcp]
      simp only [Bool.false_eq_true, if_false]
      rw [hnf, he]
      rfl
    rcases hn fuel hf with ⟨M, R, g, gm, gr, gp⟩ | ⟨g, b, -, gb, gv⟩
    · exact .inl ⟨{ f with emb := .fin M R }, by rw [e, g], ⟨hnf, M, R, rfl, gm, gr⟩, gp⟩
    · exact .inr ⟨by rw [e, g], .inr ⟨cp, b, hcp, by rw [hnf, he]; exact gv, gb⟩⟩

theorem refineEmbedding_mono {A : ArbOps} {nd : Bool} {n k : ℕ} {f f' : Field} {p : ℤ}
    (h : refineEmbedding A nd n f p = .ok f') (hk : n ≤ k) : refineEmbedding A nd k f p = .ok f' := by
  obtain ⟨cp, b, h1, h2, rfl, h4⟩ := refineEmbedding_cases h
  unfold refineEmbedding at h ⊢
  split_ifs at h ⊢
  rw [h1]
  simp only
  rw [loop_mono n k _ hk (by rw [h2]; simp), h2]

/-- Near a root, refinement keeps the root and the enclosure small. -/
theorem near_keeps_le {K : Nf} (hK : K.Ok) (h3 : 3 ≤ K.pol.length) {α : ℝ} (hα : K.IsRoot α)
    {A : ArbOps} (hA : A.Tight) :
    ∃ δ : ℝ, 0 < δ ∧ ∀ ε ≤ δ, ∀ (nd : Bool) (n : ℕ) (p : ℤ) {f f' : Field}, f.Near K α ε →
      refineEmbedding A nd n f p = .ok f' →
        f'.Near K α ε ∧ p ≤ f'.emb.relAccuracyBits ∧ f' = { f with emb := f'.emb } := by
  have hq := root_irrational hK h3 hα
  have hα0 : α ≠ 0 := by simpa using hq 0
  have hαp := abs_pos.2 hα0
  have h0 := coeff_zero_ne hK h3
  obtain ⟨δ, hδ, d2, H⟩ := refineLoop_keeps hA h3 h0 hα0 hq hα (deriv_ne_zero hK hα)
  refine ⟨δ, hδ, fun ε hε nd n p f f' hf h => ?_⟩
  obtain ⟨hnf, m, r, he, hm, hrε⟩ := hf
  have hr := hrε.trans hε
  obtain ⟨cp, b, hcp, hl, rfl, -⟩ := refineEmbedding_cases h
  have hr0 : 0 < r := by
    refine lt_of_le_of_ne (Ball.rad_nonneg hm) ?_
    rintro rfl
    rw [Ball.mem_fin] at hm
    exact hq m (by push_cast at hm; linarith [hm.1, hm.2])
  rw [hnf, he] at hcp hl
  obtain ⟨u1, u2⟩ := ulp_of_compPrec h3 h0 hα0 hm hr0 (by linarith) hcp
  obtain ⟨M, R, rfl, gm, gr, gp, gR⟩ := H p n m r cp b ⟨hm, hr0, hr, u1, u2⟩ hl
  have gR' : (R : ℝ) ≤ r := by exact_mod_cast gR
  exact ⟨⟨hnf, M, R, rfl, gm, gR'.trans hrε⟩, gp, rfl⟩

theorem near_keeps {K : Nf} (hK : K.Ok) (h3 : 3 ≤ K.pol.length) {α : ℝ} (hα : K.IsRoot α) {A : ArbOps}
    (hA : A.Tight) :
    ∃ δ : ℝ, 0 < δ ∧ ∀ (nd : Bool) (n : ℕ) (p : ℤ) {f f' : Field}, f.Near K α δ →
      refineEmbedding A nd n f p = .ok f' →
        f'.Near K α δ ∧ p ≤ f'.emb.relAccuracyBits ∧ f' = { f with emb := f'.emb } := by
  obtain ⟨δ, hδ, H⟩ := near_keeps_le hK h3 hα hA
  exact ⟨δ, hδ, H δ (le_refl _)⟩

/-- C14 for every sequence of refinements of a small enough enclosure, in any field of degree at
least two: the root is kept, the enclosure stays small enough, and nothing else changes. -/
theorem C14_near_root_partial {K : Nf} (hK : K.Ok) (h3 : 3 ≤ K.pol.length) {α : ℝ}
    (hα : K.IsRoot α) {A : ArbOps} (hA : A.Tight) :
    ∃ δ : ℝ, 0 < δ ∧ ∀ (nd : Bool) (ps : List ℤ) (n : ℕ) {f f' : Field}, f.Near K α δ →
      ps.foldlM (fun f p => refineEmbedding A nd n f p) f = .ok f' →
        f'.Near K α δ ∧ (∀ p ∈ ps.getLast?, p ≤ f'.emb.relAccuracyBits) ∧
          f' = { f with emb := f'.emb } := by
  obtain ⟨δ, hδ, H⟩ := near_keeps hK h3 hα hA
  refine ⟨δ, hδ, fun nd ps => ?_⟩
  induction ps with
  | nil =>
    intro n f f' hf h
    have : f = f' := by injection h
    subst this
    exact ⟨hf, by simp, rfl⟩
  | cons p ps ih =>
    intro n f f' hf h
    rw [List.foldlM_cons] at h
    obtain ⟨f1, h1, h2⟩ := Res.bind_eq_ok.1 h
    obtain ⟨g1, g2, g3⟩ := H nd n p hf h1
    obtain ⟨k1, k2, k3⟩ := ih n g1 h2
    refine ⟨k1, ?_, ?_⟩
    · cases ps with
      | nil =>
        have : f1 = f' := by injection h2
        subst this
        simpa using g2
      | cons q ps => simpa using k2
    · rw [k3, g3]

/-- The fields near a root satisfy what the element layer needs. -/
theorem near_inv_le {K : Nf} (hK : K.Ok) (h3 : 3 ≤ K.pol.length) {α : ℝ} (hα : K.IsRoot α)
    {A : ArbOps} (hA : A.Tight) :
    ∃ δ : ℝ, 0 < δ ∧ ∀ ε ≤ δ, ∀ (E : Env K) (nd : Bool) (n : ℕ), E.refine = refineEmbedding A nd n →
      FieldInv E α (fun f => f.Near K α ε ∧ 2 ≤ f.prec) := by
  obtain ⟨δ, hδ, H⟩ := near_keeps_le hK h3 hα hA
  refine ⟨δ, hδ, fun ε hε E nd n hr => ⟨hK, hα, fun h => h.1.1, fun h => ?_, fun h => h.2, ?_⟩⟩
  · obtain ⟨⟨-, m, r, e, hm, -⟩, -⟩ := h
    rw [e]; exact hm
  · rintro f p f' ⟨hf, hp⟩ h
    rw [hr] at h
    obtain ⟨g1, -, g3⟩ := H ε hε nd n p hf h
    exact ⟨g1, by rw [g3]; exact hp⟩

theorem near_inv {K : Nf} (hK : K.Ok) (h3 : 3 ≤ K.pol.length) {α : ℝ} (hα : K.IsRoot α) {A : ArbOps}
    (hA : A.Tight) :
    ∃ δ : ℝ, 0 < δ ∧ ∀ (E : Env K) (nd : Bool) (n : ℕ), E.A = A → E.refine = refineEmbedding A nd n →
      FieldInv E α (fun f => f.Near K α δ ∧ 2 ≤ f.prec) := by
  obtain ⟨δ, hδ, H⟩ := near_inv_le hK h3 hα hA
  exact ⟨δ, hδ, fun E nd n _ hr => H δ (le_refl _) E nd n hr⟩

/-- C01 for all fields of degree at least two, any number of real roots, with the modelled refinement
and any arithmetic with tight radii: if the first enclosure is small enough then after any sequence of
calls every element's ball contains its exact value and the field's ball contains the root. -/
theorem C01_enclosures_near_partial {K : Nf} (hK : K.Ok) (h3 : 3 ≤ K.pol.length) {α : ℝ}
    (hα : K.IsRoot α) {A : ArbOps} (hA : A.Tight) :
    ∃ δ : ℝ, 0 < δ ∧ ∀ (E : Env K) (nd : Bool) (n : ℕ), E.A = A → E.refine = refineEmbedding A nd n →
      ∀ {f : Field}, f.Near K α δ → 2 ≤ f.prec → ∀ {ops : List Op} {as : List Ans} {s' : Mem},
        E.run ops (freshMem f) = .ok (as, s') →
          α ∈ s'.fld.emb ∧ ∀ a, (s'.heap (.user a)).elem.val α ∈ (s'.heap (.user a)).emb := by
  obtain ⟨δ, hδ, H⟩ := near_inv hK h3 hα hA
  exact ⟨δ, hδ, fun E nd n hA hr f hf hp ops as s' h => C01_enclosures_partial (H E nd n hA hr) ⟨hf, hp⟩ h⟩

/-! ### The theorems apply -/

theorem K2_root : K2.IsRoot √2 := by
  have h : √2 * √2 = (2 : ℝ) := Real.mul_self_sqrt (by norm_num)
  simp [Nf.IsRoot, K2, toPoly, h]

theorem K2_sane : K2.Sane √2 := by
  refine ⟨5, ?_, by simp [K2]⟩
  have h : √2 * √2 = (2 : ℝ) := Real.mul_self_sqrt (by norm_num)
  have h2 : √2 ≤ 3 / 2 := by
    rw [Real.sqrt_le_left (by norm_num)]; norm_num
  have h0 := Real.sqrt_nonneg 2
  rw [abs_of_nonneg h0]
  simp only [K2, List.map_cons, List.map_nil, toPoly, eval_add, eval_C, eval_mul, eval_X]
  norm_num
  nlinarith

/-- the floating point arithmetic refines `√2` to every precision: some field, for which every
refinement returns -/
example : ∃ f : Field, f.nf = K2 ∧ √2 ∈ f.emb ∧ ∀ prec : ℤ, ∃ n, ∀ fuel, n ≤ fuel →
    (∃ f', refineEmbedding fpArb false fuel f prec = .ok f' ∧ √2 ∈ f'.emb ∧
      prec ≤ f'.emb.relAccuracyBits) ∨
    (refineEmbedding fpArb false fuel f prec = .ub ∧ Overflows fpArb f prec) := by
  obtain ⟨δ, hδ, -, H⟩ := C55_refine_returns_partial K2_ok (by decide) K2_root K2_sane fpArb_tight
  obtain ⟨r, r0, r1⟩ := exists_rat_btwn hδ
  obtain ⟨m, m0, m1⟩ := exists_rat_btwn (show √2 - r < √2 by linarith)
  have hm : √2 ∈ Ball.fin m r := by
    rw [Ball.mem_fin]; constructor <;> linarith
  refine ⟨⟨K2, .fin m r, 64, false⟩, rfl, hm, fun prec => ?_⟩
  obtain ⟨n, hn⟩ := H ⟨K2, .fin m r, 64, false⟩ ⟨rfl, m, r, rfl, hm, r1.le⟩ false (by simp) prec
  refine ⟨n, fun fuel hf => ?_⟩
  rcases hn fuel hf with ⟨f', e, ⟨-, M, R, he, hM, -⟩, hpp⟩ | h
  · exact .inl ⟨f', e, he ▸ hM, hpp⟩
  · exact .inr h

/-- the field of `√2`, which has two roots: some first enclosure, for which every history is safe -/
example : ∃ f : Field, f.nf = K2 ∧ √2 ∈ f.emb ∧ ∀ (N : NfOps K2) (fuel : ℕ) (ops : List Op)
    (as : List Ans) (s' : Mem),
    (⟨fpArb, N, refineEmbedding fpArb false fuel, fuel⟩ : Env K2).run ops (freshMem f) = .ok (as, s') →
      √2 ∈ s'.fld.emb ∧
        ∀ a, (s'.heap (.user a)).elem.val √2 ∈ (s'.heap (.user a)).emb := by
  obtain ⟨δ, hδ, H⟩ := C01_enclosures_near_partial K2_ok (by decide) K2_root fpArb_tight
  obtain ⟨r, r0, r1⟩ := exists_rat_btwn hδ
  obtain ⟨m, m0, m1⟩ := exists_rat_btwn (show √2 - r < √2 by linarith)
  have hm : √2 ∈ Ball.fin m r := by
    rw [Ball.mem_fin]; constructor <;> linarith
  refine ⟨⟨K2, .fin m r, 64, false⟩, rfl, hm, fun N fuel ops as s' h => ?_⟩
  exact H _ false fuel rfl rfl ⟨rfl, m, r, rfl, hm, r1.le⟩ (show (2 : ℤ) ≤ 64 by norm_num) h

/-- the same at the start of a typical run: six digits of `√2`, refined to 64 bits -/
example : (match refineEmbedding fpArb false 64 ⟨K2, .fin (92681 / 65536) (1 / 65536), 64, false⟩ 64 with
    | .ok f => decide (64 ≤ f.emb.relAccuracyBits) | _ => false) = true := by decide +kernel

/-! ### Refinement need not return -/

/-- an enclosure of `√2`, containing no other root, on which one round of refinement has no effect -/
def stuckBall : Ball := .fin (5793 / 4096) (3 / 2)

theorem stuck_step (prec : ℤ) (h : 0 ≤ prec) :
    refineStep fpArb K2.pol prec (stuckBall, 14) = .ok (.inl (stuckBall, 14)) := by
  have h1 : stuckBall.relAccuracyBits < prec := by
    have : stuckBall.relAccuracyBits = -1 := by decide +kernel
    omega
  have h2 : refineStep fpArb K2.pol 0 (stuckBall, 14) = .ok (.inl (stuckBall, 14)) := by
    decide +kernel
  have h3 : stuckBall.relAccuracyBits < 0 := by decide +kernel
  unfold refineStep at h2 ⊢
  rw [if_pos h1]
  rw [if_pos h3] at h2
  exact h2

/-- Enclosures and convergence of the ball arithmetic, and tight radii, are not enough for
refinement to return from every isolating ball: for `x² - 2` and a ball accepted by
`fmpq_poly_check_unique_real_root`, `renf_init` goes round for ever. -/
theorem C55_counterexample :
    K2.Ok ∧ fpArb.Tight ∧ √2 ∈ stuckBall ∧ (∀ x ∈ stuckBall, (K2.IsRoot x ↔ x = √2)) ∧
      checkUnique fpArb scale2Simple 100 K2.pol stuckBall 64 = .ok true ∧
      (∀ prec fuel, 0 ≤ prec →
        refineEmbedding fpArb false fuel ⟨K2, stuckBall, 64, false⟩ prec = .running) ∧
      ∀ fuel, renfInit fpArb scale2Simple false 100 fuel K2.pol stuckBall 64 = .running := by
  have h : √2 * √2 = (2 : ℝ) := Real.mul_self_sqrt (by norm_num)
  have h2 : √2 ≤ 3 / 2 := by
    rw [Real.sqrt_le_left (by norm_num)]; norm_num
  have h2' : 1 ≤ √2 := by
    rw [Real.le_sqrt (by norm_num)] <;> norm_num
  have hmem : √2 ∈ stuckBall := by
    unfold stuckBall
    rw [Ball.mem_fin]
    push_cast
    constructor <;> linarith
  have hcu : checkUnique fpArb scale2Simple 100 K2.pol stuckBall 64 = .ok true := by decide +kernel
  have hrun : ∀ prec fuel, 0 ≤ prec →
      refineEmbedding fpArb false fuel ⟨K2, stuckBall, 64, false⟩ prec = .running := by
    intro prec fuel hp
    have hl : loop (refineStep fpArb K2.pol prec) fuel (stuckBall, 14) = .running := by
      induction fuel with
      | zero => rfl
      | succ n ih =>
        unfold loop
        rw [stuck_step prec hp]
        exact ih
    have hcp : compPrec K2.pol stuckBall (max 64 64) = some 14 := by decide +kernel
    unfold refineEmbedding
    simp only [Bool.false_and, Bool.false_eq_true, if_false]
    rw [hcp]
    simp only
    rw [hl]
  refine ⟨K2_ok, fpArb_tight, hmem, fun x hx => ⟨fun hr => ?_, fun e => e ▸ K2_root⟩, hcu, hrun,
    fun fuel => ?_⟩
  · unfold stuckBall at hx
    rw [Ball.mem_fin] at hx
    push_cast at hx
    have hx2 : x * x = 2 := by
      have := hr
      simp [Nf.IsRoot, K2, toPoly] at this
      linarith
    have hf : (x - √2) * (x + √2) = 0 := by ring_nf; nlinarith
    rcases mul_eq_zero.1 hf with e | e
    · linarith
    · nlinarith [hx.1, hx.2]
  · unfold renfInit
    rw [hcu]
    have hl : (⟨K2.pol⟩ : Nf).isLinear = false := by decide
    simp only [Res.bind]
    rw [if_neg (by decide), if_neg (by rw [hl]; simp)]
    exact hrun 64 fuel (by norm_num)

/-! ### C01 without the smallness condition -/

/-- an arithmetic of the field of `x² + 3x + 1`, with the coefficients of the generator at hand -/
noncomputable def ops5 : NfOps K5 := { nfOps K5_ok with
  setPoly := fun d n q => if n = [0, 1] ∧ q = 1 then ⟨[0, 1], 1, 0⟩ else (nfOps K5_ok).setPoly d n q
  setPoly_wf := by
    intro d n q hq
    split_ifs
    · exact ⟨by decide, by decide, by decide, by decide, by decide⟩
    · exact (nfOps K5_ok).setPoly_wf hq
  setPoly_val := by
    intro d n q α hq hα
    split_ifs with h
    · rw [h.1, h.2]; rfl
    · exact (nfOps K5_ok).setPoly_val hq hα }

/-- the field of `x² + 3x + 1` with the modelled refinement -/
noncomputable def env5 : Env K5 := ⟨fpArb, ops5, refineEmbedding fpArb false 200, 200⟩

/-- C01 is FALSE of the code, as refinement may jump to another root (`C14_counterexample`): the ball
contains exactly one root of `x² + 3x + 1`, `(√5-3)/2`, and is accepted by the uniqueness check of the
constructor.  After `renf_refine_embedding` the enclosure of the field does not contain the root, nor
that of the generator its value, and `floor` of the generator is `-3` instead of `-1`. -/
theorem C01_counterexample :
    ∃ s', env5.run [.refine 64, .gen 0, .floor 0] (freshMem ⟨K5, ball5, 64, false⟩) =
        .ok ([.unit, .unit, .int (-3)], s') ∧
      checkUnique fpArb scale2Simple 100 K5.pol ball5 64 = .ok true ∧
      K5.Ok ∧ (∀ x ∈ ball5, (K5.IsRoot x ↔ x = (√5 - 3) / 2)) ∧ (√5 - 3) / 2 ∈ ball5 ∧
      (√5 - 3) / 2 ∉ s'.fld.emb ∧
      (s'.heap (.user 0)).elem.val ((√5 - 3) / 2) = (√5 - 3) / 2 ∧
      (√5 - 3) / 2 ∉ (s'.heap (.user 0)).emb ∧ ⌊(√5 - 3) / 2⌋ = -1 := by
  obtain ⟨-, -, h1, h2, h3, h4, -⟩ := C14_counterexample
  have h : (match env5.run [.refine 64, .gen 0, .floor 0] (freshMem ⟨K5, ball5, 64, false⟩) with
    | .ok (a, s) => decide (a = [.unit, .unit, .int (-3)]) && 
        (match s.fld.emb with | .fin m r => decide (m + r < -1) | _ => false) &&
        decide ((s.heap (.user 0)).elem = ⟨[0, 1], 1, 0⟩) &&
        (match (s.heap (.user 0)).emb with | .fin m r => decide (m + r < -1) | _ => false)
    | _ => false) = true := by
    decide +kernel
  have hs := sqrt5_bounds
  cases hr : env5.run [.refine 64, .gen 0, .floor 0] (freshMem ⟨K5, ball5, 64, false⟩) with
  | ok p =>
    obtain ⟨a, s⟩ := p
    rw [hr] at h
    simp only [Bool.and_eq_true, decide_eq_true_eq] at h
    obtain ⟨⟨⟨rfl, g2⟩, g3⟩, g4⟩ := h
    have key : ∀ b : Ball, (match b with | .fin m r => decide (m + r < -1) | _ => false) = true →
        (√5 - 3) / 2 ∉ b := by
      intro b hb hm
      cases b with
      | fin m r =>
        simp only [decide_eq_true_eq] at hb
        have hb' : ((m + r : ℚ) : ℝ) < (-1 : ℚ) := by exact_mod_cast hb
        push_cast at hb'
        rw [Ball.mem_fin] at hm
        linarith [hm.2]
      | _ => simp at hb
    refine ⟨s, rfl, h1, h2, h3, h4, key _ g2, ?_, key _ g4, ?_⟩
    · rw [g3]
      simp [NfElem.val, realValue, toPoly]
    · rw [Int.floor_eq_iff]
      push_cast
      constructor <;> linarith
  | _ => rw [hr] at h; simp at h

/-! ## C20 at high precision -/

/-- C20 for every positive `d` and every `n ≥ 2`, even ones included, at every precision from some `P`
on (`P` depends on `d` and `n` only): the field is `x^n - d`, embedded at the positive `n`-th root.
Partial: for irreducible `x^n - d`; at low precision see `C20_nth_root_partial` and, for odd `n`,
`C20_nth_root_odd`. -/
theorem C20_nth_root_high_precision_partial {A : ArbOps} (hA : A.Tight) (hA' : A.RootConvergent) {d : ℚ}
    {n : ℕ} (hn : 2 ≤ n) (hK : (⟨nthRootPol d n⟩ : Nf).Ok) {α : ℝ} (hα : 0 < α) (hd : α ^ n = d) :
    ∃ P : ℤ, ∀ prec, P ≤ prec → ∀ {F : Scale2} {nd : Bool} {n₁ n₂ : ℕ} {f : Field},
      renfInitNthRoot A F nd n₁ n₂ d n prec = .ok f →
        f.nf.pol = nthRootPol d n ∧ f.nf.IsRoot α ∧ α ∈ f.emb ∧ f.prec = prec ∧
          prec ≤ f.emb.relAccuracyBits := by
  have hr := (nthRootPol_root (d := d) (n := n) (by omega) α).2 hd
  have h3 : 3 ≤ (⟨nthRootPol d n⟩ : Nf).pol.length := by simp [nthRootPol]; omega
  have hd0 : 0 < d := by
    have : (0 : ℝ) < d := hd ▸ pow_pos hα n
    exact_mod_cast this
  obtain ⟨δ, hδ, H⟩ := near_keeps hK h3 hr hA
  obtain ⟨P, HP⟩ := hA' d n δ hd0 (by omega) hδ
  refine ⟨P, fun prec hp F nd n₁ n₂ f h => ?_⟩
  obtain ⟨m, r, e, hrad⟩ := HP prec hp
  unfold renfInitNthRoot at h
  split_ifs at h with h1 h2
  push Not at h2
  have hp2 : 2 ≤ prec := by
    have := h2.2
    simp [guardPrec] at this
    omega
  have hm : α ∈ A.rootUi (A.setFmpq d prec) n prec :=
    A.rootUi_mem hp2 (by omega) hα.le (hd ▸ A.setFmpq_mem hp2)
  rw [e] at h hm
  obtain ⟨-, ⟨hl, -⟩ | ⟨-, h⟩⟩ := renfInit_cases h
  · exact absurd hl (by have : (nthRootPol d n).length ≥ 3 := h3; omega)
  · obtain ⟨⟨g1, M, R, g2, g3, -⟩, g4, g5⟩ := H nd n₂ prec ⟨rfl, m, r, rfl, hm, hrad⟩ h
    refine ⟨by rw [g1], by rw [g1]; exact hr, by rw [g2]; exact g3, by rw [g5], g4⟩

/-- the hypotheses are met by `√2`, and the construction returns -/
example : fpArb.Tight ∧ fpArb.RootConvergent ∧ (⟨nthRootPol 2 2⟩ : Nf).Ok ∧ (√2 : ℝ) ^ 2 = (2 : ℚ) ∧
    ∃ f, renfInitNthRoot fpArb scale2Simple false 60 200 2 2 64 = .ok f := by
  refine ⟨fpArb_tight, fpArb_rootConvergent, ?_, by norm_num, ?_⟩
  · have e : nthRootPol 2 2 = K2.pol := by decide +kernel
    rw [e]; exact K2_ok
  · have h : (match renfInitNthRoot fpArb scale2Simple false 60 200 2 2 64 with
      | .ok _ => true | _ => false) = true := by decide +kernel
    split at h
    · exact ⟨_, by assumption⟩
    · simp at h

end EAntic
