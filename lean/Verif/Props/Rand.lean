import Verif.Lemmas.Rand
import Verif.Lemmas.Demo
import Verif.Props.Refinement
import Verif.Props.PolyExtra
import Verif.Props.RootIsolation

/-!
# C59: random polynomials, fields and elements

`Draw.Ok` (`Spec/Rand.lean`) is what FLINT's generators promise; the theorems hold for every answer
that they may give.
-/

namespace EAntic
open Polynomial

/-- C59, `fmpz_poly_randtest_irreducible(p, state, len, bits)`: a polynomial of positive degree is
irreducible over the rational numbers, with leading coefficient nonzero; `p` has at most `len`
coefficients, each of absolute value below `2^bits`. -/
theorem C59_irreducible {d : Draw} {len : ℤ} {bits : ℕ} (h : d.Ok len bits) :
    (2 ≤ (randIrreducible d).length → Irreducible (toPolyQ (randIrreducible d))) ∧
      1 ≤ (randIrreducible d).length ∧ ((randIrreducible d).length : ℤ) ≤ len ∧
      (randIrreducible d).getLastD 0 ≠ 0 ∧ ∀ a ∈ randIrreducible d, |a| < 2 ^ bits := by
  refine ⟨fun h2 => (randIrreducible_ok h (by rwa [randIrreducible_length] at h2)).irr, ?_, ?_, ?_,
    randIrreducible_bound h⟩
  · rw [randIrreducible_length]; exact h.len_pos
  · rw [randIrreducible_length]; exact h.len_le
  · have := randIrreducible_lead h
    intro e; rw [e] at this; simp at this

/-- C59, the full statement (false by `C59_counterexample`): `renf_randtest(nf, state, len, prec, bits)`
initialises `nf` with an irreducible polynomial of degree between 1 and `len - 1` and coefficients
below `2^bits`, embedded at one of its real roots.  Proved part: if the call returns, and refinement
from the isolating interval cannot leave the root (see C14). -/
theorem C59_field_partial {A : ArbOps} {F : Scale2} {flog0 : ℤ} {N : List ℤ → ℕ}
    (hN : ∀ p : List ℤ, toPoly p ≠ 0 → (N p = 0 ↔ ¬ ∃ x, (toPoly p).IsRoot x))
    {nd : Bool} {n₀ n₁ n₂ : ℕ} {draws : ℕ → Draw} {pick : ℕ → ℕ} (hpick : ∀ n, 0 < n → pick n < n)
    {len prec : ℤ} {bits : ℕ} (hd : ∀ i, (draws i).Ok len bits) {f : Field}
    (hsec : f.nf.Ok → ∀ (I : ℤ × ℤ) (α : ℝ), α ∈ ivl I → f.nf.IsRoot α →
      rootCount (toPoly f.nf.pol) (ivl I) = 1 →
      Secure A f.nf.pol α n₂ (.fin ((2 * I.1 + 1 : ℤ) * 2 ^ (I.2 - 1)) (2 ^ (I.2 - 1))))
    (h : renfRandtest A F flog0 N nd n₀ n₁ n₂ draws pick len prec = .ok f) :
    Irreducible (toPolyQ f.nf.pol) ∧ 1 ≤ renfDegree f ∧ renfDegree f ≤ len - 1 ∧
      (toPolyQ f.nf.pol).natDegree = renfDegree f ∧ (∀ a ∈ f.nf.pol, |a| < 2 ^ bits) ∧
      f.prec = prec ∧ f.immutable = false ∧ ∃ α : ℝ, f.nf.IsRoot α ∧ α ∈ f.emb := by
  unfold renfRandtest at h
  split_ifs at h with h1
  obtain ⟨p, hp, h⟩ := Res.bind_eq_ok.1 h
  obtain ⟨r, hr, h⟩ := Res.bind_eq_ok.1 h
  split_ifs at h with h2
  obtain ⟨emb, he, h⟩ := Res.bind_eq_ok.1 h
  obtain ⟨j, rfl, hroot⟩ := drawLoop_ok hp
  have hdj := hd j
  generalize draws j = d at *
  have hlead : (randIrreducible d).getLastD 0 ≠ 0 := (C59_irreducible hdj).2.2.2.1
  have hP : toPoly (randIrreducible d) ≠ 0 := toPoly_ne_of_lead hlead
  obtain ⟨k1, k2⟩ := draw_ok hN hdj
  have hK := k2 (k1.1 hroot)
  have h2l := hK.two_le
  simp only at h2l
  have hI := isolateRealRoots_window F flog0 n₁ _ hP r hr
  set I := r.2.getD (pick r.2.length) (0, 0) with hIdef
  have hIm : I ∈ r.2 := by
    have := hpick r.2.length (Nat.pos_of_ne_zero h2)
    rw [hIdef, List.getD_eq_getElem _ _ this]
    exact List.getElem_mem _
  have hc := hI.ivl_count I hIm
  obtain ⟨α, hα, hαr⟩ := (rootCount_pos_iff hP (ivl I)).1 (by rw [hc]; exact one_pos)
  obtain ⟨q1, q2, q3⟩ := arbFromInterval_exact I
  rw [q2] at he
  simp only [Res.ok.injEq] at he
  subst he
  have hnf : f.nf.pol = randIrreducible d := by
    obtain ⟨-, ⟨-, rfl⟩ | ⟨-, h⟩⟩ := renfInit_cases h
    · rfl
    · obtain ⟨cp, b, -, -, rfl, -⟩ := refineEmbedding_cases h
      rfl
  have hin : α ∈ Ball.fin ((2 * I.1 + 1 : ℤ) * 2 ^ (I.2 - 1)) (2 ^ (I.2 - 1)) := by
    rw [← q3]
    exact (mem_embeddingBall q1).2 ⟨hα.1.le, hα.2.le⟩
  have hs := hsec (by rw [show f.nf = ⟨randIrreducible d⟩ from congrArg Nf.mk hnf]; exact hK) I α hα (show (toPoly f.nf.pol).IsRoot α by rw [hnf]; exact hαr) (by rw [hnf]; exact hc)
  rw [hnf] at hs
  obtain ⟨g1, g2, g3, g4, -⟩ := renfInit_keeps hK hαr hin hs h
  have hlen := randIrreducible_length d
  unfold renfDegree
  rw [hnf]
  refine ⟨hK.irr, by omega, ?_, ?_, randIrreducible_bound hdj, g3, g4, α, ?_, g2⟩
  · have := hdj.len_le; omega
  · have : (toPolyQ (randIrreducible d)).natDegree = (randIrreducible d).length - 1 := natDegree_pol hK
    rw [this]; omega
  · rw [g1]; exact hαr

/-- C59 without the condition on the refinement, if intersections of balls do not grow. -/
theorem C59_field_exact_intersection {A : ArbOps} (hA : A.InterSub) {F : Scale2} {flog0 : ℤ}
    {N : List ℤ → ℕ} (hN : ∀ p : List ℤ, toPoly p ≠ 0 → (N p = 0 ↔ ¬ ∃ x, (toPoly p).IsRoot x))
    {nd : Bool} {n₀ n₁ n₂ : ℕ} {draws : ℕ → Draw} {pick : ℕ → ℕ} (hpick : ∀ n, 0 < n → pick n < n)
    {len prec : ℤ} {bits : ℕ} (hd : ∀ i, (draws i).Ok len bits) {f : Field}
    (h : renfRandtest A F flog0 N nd n₀ n₁ n₂ draws pick len prec = .ok f) :
    Irreducible (toPolyQ f.nf.pol) ∧ 1 ≤ renfDegree f ∧ renfDegree f ≤ len - 1 ∧
      (toPolyQ f.nf.pol).natDegree = renfDegree f ∧ (∀ a ∈ f.nf.pol, |a| < 2 ^ bits) ∧
      f.prec = prec ∧ f.immutable = false ∧ ∃ α : ℝ, f.nf.IsRoot α ∧ α ∈ f.emb := by
  refine C59_field_partial hN hpick hd (fun hK I α hα hr hc => ?_) h
  obtain ⟨q1, -, q3⟩ := arbFromInterval_exact I
  rw [← q3]
  by_cases h2 : f.nf.pol.length = 2
  · exact .inl fun β hβ => linear_unique hK h2 hr hβ
  · exact secure_of_interSub hA hK h2 q1 hc hα hr n₂

/-- C59 is FALSE of the code: `renf_randtest` calls `abort` if the random polynomial is linear with a
root that is an integer (or any other root that the isolation finds exactly); `x`, with `len = 2` and
`bits = 2`, is an example. -/
theorem C59_counterexample : ∃ draws : ℕ → Draw, (∀ i, (draws i).Ok 2 2) ∧
    ∀ A F N nd n₂ pick prec, renfRandtest A F (-1) N nd 1 10 n₂ draws pick 2 prec = .abort := by
  refine ⟨fun _ => ⟨3, [0, 1], fun _ => 1⟩, fun _ => ⟨by norm_num, by norm_num, by norm_num, by simp, by simp,
    by simp, by simp, fun _ => ?_⟩, ?_⟩
  · have : Fact (Nat.Prime 3) := ⟨by norm_num⟩
    simpa [toPolyMod] using (irreducible_X : Irreducible (X : (ZMod 3)[X]))
  · intro A F N nd n₂ pick prec
    have : isolateRealRoots F (-1) 10 [0, 1] = .ok ([0], []) := by rfl
    have hd : drawLoop N (fun _ => ⟨3, [0, 1], fun _ => 1⟩) 1 0 = .ok [0, 1] := by rfl
    unfold renfRandtest
    rw [if_neg (by norm_num), hd]
    simp only [Res.bind, this]
    rfl

/-- C59.  There is no field of degree 0: `renf_randtest` refuses `len ≤ 1`, whatever is drawn. -/
theorem C59_len {A : ArbOps} {F : Scale2} {flog0 : ℤ} {N : List ℤ → ℕ} {nd : Bool} {n₀ n₁ n₂ : ℕ}
    {draws : ℕ → Draw} {pick : ℕ → ℕ} {len prec : ℤ} (h : len ≤ 1) :
    renfRandtest A F flog0 N nd n₀ n₁ n₂ draws pick len prec = .abort := by
  unfold renfRandtest
  rw [if_pos h]

/-- C59.  `arb_from_interval` stores a ball with exactly the points from `c 2^k` to `(c+1) 2^k` if `c` has at
most `prec - 2` bits, and otherwise aborts. -/
theorem C59_interval_ball (I : ℤ × ℤ) (prec : ℤ) :
    (2 ≤ prec ∧ |I.1| < 2 ^ (prec - 2).toNat ∧ ∃ b, arbFromInterval I prec = .ok b ∧
      ∀ x : ℝ, x ∈ b ↔ (I.1 : ℝ) * 2 ^ I.2 ≤ x ∧ x ≤ ((I.1 : ℝ) + 1) * 2 ^ I.2) ∨
    ¬ (2 ≤ prec ∧ |I.1| < 2 ^ (prec - 2).toNat) ∧ arbFromInterval I prec = .abort := by
  have hsize : ∀ n : ℕ, |I.1| < 2 ^ n ↔ Nat.size I.1.natAbs ≤ n := fun n => by
    rw [Nat.size_le, Int.abs_eq_natAbs]; exact_mod_cast Iff.rfl
  have hb : (2 ≤ prec ∧ |I.1| < 2 ^ (prec - 2).toNat) ↔ ¬ (prec ≤ 0 ∨ prec < fmpzBits I.1 + 2) := by
    rw [hsize]; unfold fmpzBits; omega
  rw [← and_assoc, hb]
  unfold arbFromInterval
  by_cases hp : prec ≤ 0 ∨ prec < fmpzBits I.1 + 2
  · exact .inr ⟨not_not.2 hp, if_pos hp⟩
  · refine .inl ⟨hp, _, if_neg hp, fun x => ?_⟩
    rw [(embeddingBall_exact I (prec := prec) (by omega)).2, Ball.mem_fin]
    have : (2 : ℝ) ^ I.2 = 2 * 2 ^ (I.2 - 1) := by
      rw [← zpow_one_add₀ (by norm_num)]; congr 1; ring
    push_cast
    rw [this]
    constructor <;> rintro ⟨h1, h2⟩ <;> constructor <;> linarith

/-- the interval from 3/2 to 2 -/
example : arbFromInterval (3, -1) 4 = .ok (.fin (7 / 4) (1 / 4)) ∧ arbFromInterval (3, -1) 3 = .abort := by
  decide +kernel

/-- the polynomial `x² - 2`, which is `x² + 1` modulo 3, may be drawn -/
def demoDraw : Draw := ⟨3, [1, 0, 1], fun i => i⟩

theorem demoDraw_ok : demoDraw.Ok 3 2 := by
  refine ⟨by unfold demoDraw; norm_num, by unfold demoDraw; norm_num, by unfold demoDraw; norm_num,
    by simp [demoDraw], by simp [demoDraw], by simp [demoDraw], by simp [demoDraw], fun _ => ?_⟩
  have key : ∀ a : ZMod 3, a ^ 2 + 1 ≠ 0 := by decide
  have : Fact (Nat.Prime 3) := ⟨by norm_num⟩
  have e : toPolyMod 3 [1, 0, 1] = X ^ 2 + 1 := by simp [toPolyMod]; ring
  show Irreducible (toPolyMod 3 [1, 0, 1])
  rw [e]
  have hd : (X ^ 2 + 1 : (ZMod 3)[X]).natDegree = 2 := by compute_degree!
  refine (irreducible_iff_roots_eq_zero_of_degree_le_three (by rw [hd]) (by rw [hd]; norm_num)).2 ?_
  rw [Multiset.eq_zero_iff_forall_notMem]
  intro a ha
  have := (mem_roots'.1 ha).2
  simp only [IsRoot.def, eval_add, eval_pow, eval_X, eval_one] at this
  exact key a this

open Classical in
/-- the hypotheses are met, and the call returns -/
example : demoDraw.Ok 3 2 ∧ randIrreducible demoDraw = [-2, 0, 1] ∧ exactArb.InterSub ∧
    (∃ N : List ℤ → ℕ, ∀ p : List ℤ, toPoly p ≠ 0 → (N p = 0 ↔ ¬ ∃ x, (toPoly p).IsRoot x)) ∧
    ∀ N, ∃ f, renfRandtest exactArb scale2Simple (-1) N false 1 60 200 (fun _ => demoDraw) (· - 1) 3 64 =
      .ok f := by
  refine ⟨demoDraw_ok, by decide, exactArb_interSub,
    ⟨fun p => (toPoly p).roots.toFinset.card, fun p hp => ?_⟩, fun N => ?_⟩
  · rw [Finset.card_eq_zero, Finset.eq_empty_iff_forall_notMem]
    simp only [Multiset.mem_toFinset, mem_roots hp, not_exists]
  · have hd : drawLoop N (fun _ => demoDraw) 1 0 = .ok [-2, 0, 1] := by rfl
    unfold renfRandtest
    rw [if_neg (by norm_num), hd]
    have h : (match ((isolateRealRoots scale2Simple (-1) 60 [-2, 0, 1]).bind fun r =>
      if r.2.length = 0 then .abort
      else
        let I := r.2.getD (r.2.length - 1) (0, 0)
        (arbFromInterval I (fmpzBits I.1 + max I.2 0 + 2)).bind fun emb =>
        renfInit exactArb scale2Simple false 60 200 [-2, 0, 1] emb 64 : Res Field) with
      | .ok _ => true | _ => false) = true := by decide +kernel
    split at h
    · exact ⟨_, by assumption⟩
    · simp at h

/-- C59, termination of the search: if one of the polynomials drawn has a real root, the loop ends, and
then the roots of the chosen polynomial are isolated. -/
theorem C59_search_returns {F : Scale2} {flog0 : ℤ} {N : List ℤ → ℕ}
    (hN : ∀ p : List ℤ, toPoly p ≠ 0 → (N p = 0 ↔ ¬ ∃ x, (toPoly p).IsRoot x))
    {draws : ℕ → Draw} {len : ℤ} {bits : ℕ} (hd : ∀ i, (draws i).Ok len bits) {j : ℕ} {x : ℝ}
    (hj : (toPoly (randIrreducible (draws j))).IsRoot x) :
    ∃ n₀ n₁, ∀ n n', n₀ ≤ n → n₁ ≤ n' → ∃ p, drawLoop N draws n 0 = .ok p ∧
      (∃ y, (toPoly p).IsRoot y) ∧ ∃ r, isolateRealRoots F flog0 n' p = .ok r := by
  obtain ⟨n₀, p, hp⟩ := drawLoop_reaches (N := N) (((draw_ok hN (hd j)).1).2 ⟨x, hj⟩)
  obtain ⟨i, e, hi⟩ := drawLoop_ok (hp n₀ le_rfl)
  obtain ⟨k1, k2⟩ := draw_ok hN (hd i)
  rw [← e] at k1 k2
  have hr := k1.1 hi
  have hK := k2 hr
  obtain ⟨n₁, h⟩ := C25_isolate_real_roots_terminates F flog0 p (toPoly_ne_of_lead hK.lead)
    fun y _ hy => deriv_ne_zero hK hy
  exact ⟨n₀, n₁, fun n n' hn hn' => ⟨p, hp n hn, hr, h n' hn'⟩⟩

/-- C59, `renf_elem_randtest(a, state, bits, nf)`: whatever element `e` of the field
`nf_elem_randtest` gives, `a` has its value and an enclosure that contains it, and nothing else
changes. -/
theorem C59_element {K : Nf} {E : Env K} {α : ℝ} {I : Field → Prop} {v : Reg → ℝ} {s s' : Mem}
    (hE : FieldInv E α I) (hs : Rep K α I v s) {a : ℕ} {e : NfElem} (he : e.Wf K)
    (h : E.randtest (.user a) e s = .ok ((), s')) :
    Rep K α I (upd v (.user a) (e.val α)) s' ∧ e.val α ∈ (s'.heap (.user a)).emb := by
  suffices hh : Hoare (Rep K α I v) (E.randtest (.user a) e)
      fun _ => Rep K α I (upd v (.user a) (e.val α)) by
    have := hh _ _ _ hs h
    refine ⟨this, ?_⟩
    have h2 := this.enc (.user a)
    rwa [upd_same] at h2
  unfold Env.randtest Env.setEvaluation
  refine Hoare.read fun x => ?_
  refine Hoare.bind (fun _ s => ∃ s₀, Rep K α I v s₀ ∧ s = s₀.write (.user a) ⟨e, x.emb⟩)
    (Hoare.write fun s hs => ⟨s, hs.1, rfl⟩) fun _ => ?_
  refine Hoare.field fun f => ?_
  refine Hoare.ite (fun hp => ?_) (fun _ => Hoare.ub)
  refine Hoare.read fun x => Hoare.field fun f => Hoare.write ?_
  rintro s ⟨⟨⟨⟨s₀, h, rfl⟩, rfl⟩, rfl⟩, rfl⟩
  have := evalBall_mem (E := E) (hE.enc h.inv) he (p := s₀.fld.prec) (hE.prec h.inv)
  have key := h.write (r := .user a) (e := ⟨e, E.evalBall s₀.fld e s₀.fld.prec⟩) he rfl this
  convert key using 1
  simp only [Mem.write, if_true]
  congr 1
  funext r
  by_cases hr : r = .user a <;> simp [hr]

/-- the element `(3 - 4 ∛2)/5` may be drawn in the field of `∛2` -/
example : (⟨[3, -4], 5, 0⟩ : NfElem).Wf K3 ∧
    ∃ s', env3.randtest (.user 0) ⟨[3, -4], 5, 0⟩ mem3 = .ok ((), s') :=
  ⟨⟨by decide, by decide, by decide, by decide, fun _ _ => ⟨by decide, by decide⟩⟩, out_eq_some (by decide +kernel)⟩

end EAntic
