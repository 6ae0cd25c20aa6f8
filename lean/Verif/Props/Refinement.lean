import Verif.Lemmas.Total
import Verif.Lemmas.Init
import Verif.Lemmas.FpArb
import Verif.Lemmas.Cond
import Verif.Lemmas.Demo
import Verif.Lemmas.Scale2Inst
import Mathlib.Analysis.SpecialFunctions.Pow.Real
import Mathlib.NumberTheory.Real.Irrational
import Mathlib.Tactic.NormNum.Prime
import Mathlib.RingTheory.Polynomial.Eisenstein.Basic
import Mathlib.RingTheory.Polynomial.GaussLemma
import Mathlib.RingTheory.Int.Basic
import Mathlib.Algebra.GCDMonoid.IntegrallyClosed

/-!
# Properties C14–C20, C28, C42, C45, C47: embeddings, their construction and refinement

`A : ArbOps` is any ball arithmetic satisfying the inclusion contracts, `fpArb` a concrete one with
floating point rounding, `exactArb` one without rounding.
-/

namespace EAntic
open Polynomial

/-! ## C14: refinement keeps the root -/

/-- C14, the full statement (false by `C14_counterexample`): `renf_refine_embedding` keeps the root
in the ball, reaches the accuracy, and changes nothing but the ball.  Proved part: for polynomials
with one real root, for balls whose distance to the other roots exceeds `4 gⁿ` radii, and for balls
in a dyadic interval without another root if intersections do not grow. -/
theorem C14_refine_embedding_partial {K : Nf} (hK : K.Ok) {α : ℝ} (hα : K.IsRoot α) {A : ArbOps}
    {nd : Bool} {n : ℕ} {f f' : Field} {p : ℤ} (hnf : f.nf = K) (he : α ∈ f.emb)
    (hs : Secure A K.pol α n f.emb) (h : refineEmbedding A nd n f p = .ok f') :
    α ∈ f'.emb ∧ p ≤ f'.emb.relAccuracyBits ∧
      f'.nf = K ∧ f'.prec = f.prec ∧ f'.immutable = f.immutable := by
  obtain ⟨h1, h2, h3⟩ := refineEmbedding_secure hK hα hnf he hs h
  rw [h3]
  exact ⟨h1, h2, hnf, rfl, rfl⟩

/-- C14 for every sequence of refinements, for polynomials with one real root. -/
theorem C14_sequences_partial {K : Nf} (hK : K.Ok) {α : ℝ} (hα : K.IsRoot α)
    (hu : ∀ β, (toPoly K.pol).IsRoot β → β = α) {A : ArbOps} {nd : Bool} {n : ℕ} (ps : List ℤ) :
    ∀ {f f' : Field}, f.nf = K → α ∈ f.emb →
      ps.foldlM (fun f p => refineEmbedding A nd n f p) f = .ok f' → f'.nf = K ∧ α ∈ f'.emb := by
  induction ps with
  | nil =>
    intro f f' hnf he h
    have : f = f' := by injection h
    exact this ▸ ⟨hnf, he⟩
  | cons p ps ih =>
    intro f f' hnf he h
    rw [List.foldlM_cons] at h
    obtain ⟨f1, h1, h2⟩ := Res.bind_eq_ok.1 h
    obtain ⟨g1, -, g3, -⟩ := C14_refine_embedding_partial hK hα hnf he (.inl hu) h1
    exact ih g3 g1 h2

/-- non-vacuity: two refinements of the embedding of `∛2` -/
example : ∃ f', [10, 40].foldlM (fun f p => refineEmbedding fpArb false 64 f p) fld3 = .ok f' ∧
    cbrt2 ∈ f'.emb := by
  have h : ∃ f', [10, 40].foldlM (fun f p => refineEmbedding fpArb false 64 f p) fld3 = .ok f' := by
    have : (match [10, 40].foldlM (fun f p => refineEmbedding fpArb false 64 f p) fld3 with
      | .ok _ => true | _ => false) = true := by decide +kernel
    split at this
    · exact ⟨_, by assumption⟩
    · simp at this
  obtain ⟨f', h⟩ := h
  exact ⟨f', h, (C14_sequences_partial K3_ok K3_root K3_unique _ fld3_good.nf fld3_good.enc h).2⟩

/-- the field of `x² + 3x + 1` -/
def K5 : Nf := ⟨[1, 3, 1]⟩

theorem K5_ok : K5.Ok := by
  refine quadratic_ok (by norm_num) fun q hq => ?_
  have h5 : Irrational (√5) := by
    have := Nat.Prime.irrational_sqrt (p := 5) (by norm_num)
    simpa using this
  have hq' : (q : ℝ) ^ 2 = 5 := by
    have : q ^ 2 = 5 := by rw [hq]; norm_num
    exact_mod_cast this
  apply h5
  refine ⟨|q|, ?_⟩
  rw [← hq', Real.sqrt_sq_eq_abs]
  push_cast; rfl

theorem K5_roots (x : ℝ) : K5.IsRoot x ↔ x = (√5 - 3) / 2 ∨ x = (-√5 - 3) / 2 := by
  have hs : √5 ^ 2 = (5 : ℝ) := Real.sq_sqrt (by norm_num)
  have e : (toPoly K5.pol).eval x = (x - (√5 - 3) / 2) * (x - (-√5 - 3) / 2) := by
    simp only [K5, toPoly, eval_add, eval_C, eval_mul, eval_X, eval_zero]
    push_cast
    linear_combination (1 / 4 : ℝ) * hs
  unfold Nf.IsRoot
  rw [IsRoot.def, e, mul_eq_zero, sub_eq_zero, sub_eq_zero]

/-- a ball around the root `-0.38…` of `x² + 3x + 1`, whose left end is close to the other root -/
def ball5 : Ball := .fin (-35717 / 32768) (50069 / 32768)

theorem sqrt5_bounds : (2236067977 / 1000000000 : ℝ) < √5 ∧ √5 < 2236067978 / 1000000000 := by
  constructor
  · rw [Real.lt_sqrt (by norm_num)]; norm_num
  · rw [Real.sqrt_lt' (by norm_num)]; norm_num

/-- C14 is FALSE of the code.  For `x² + 3x + 1` the ball `[-42893/16384, 897/2048]` contains exactly
one root, `(√5-3)/2`, and is accepted by the uniqueness check of the constructor, but the refinement
to 64 bits (floating point ball arithmetic) returns a ball that contains the other root and not
this one: the bisection step evaluates the polynomial at end points that are rounded outwards beyond
the other root. -/
theorem C14_counterexample :
    ∃ f', refineEmbedding fpArb false 200 ⟨K5, ball5, 64, false⟩ 64 = .ok f' ∧
      checkUnique fpArb scale2Simple 100 K5.pol ball5 64 = .ok true ∧
      K5.Ok ∧ (∀ x ∈ ball5, (K5.IsRoot x ↔ x = (√5 - 3) / 2)) ∧ (√5 - 3) / 2 ∈ ball5 ∧
      (√5 - 3) / 2 ∉ f'.emb ∧ K5.IsRoot ((-√5 - 3) / 2) ∧ (-√5 - 3) / 2 ∈ f'.emb := by
  have hs := sqrt5_bounds
  refine ⟨⟨K5, .fin
    (-13919856287051246876445087261680449317/5316911983139663491615228241121378304)
    (587054157/44601490397061246283071436545296723011960832), 64, false⟩, by decide +kernel,
    by decide +kernel, K5_ok, fun x hx => ?_, ?_, ?_, (K5_roots _).2 (.inr rfl), ?_⟩
  · rw [K5_roots]
    unfold ball5 at hx
    rw [Ball.mem_fin] at hx
    push_cast at hx
    constructor
    · rintro (h | h)
      · exact h
      · exfalso
        rw [h] at hx
        linarith [hx.1]
    · exact fun h => .inl h
  · unfold ball5
    rw [Ball.mem_fin]
    push_cast
    constructor <;> linarith
  · rw [Ball.mem_fin]
    push_cast
    intro h
    have := h.2
    norm_num at this
    linarith
  · rw [Ball.mem_fin]
    have h1 : (2236067977499789696409173668731276235 / 10 ^ 36 : ℝ) < √5 := by
      rw [Real.lt_sqrt (by norm_num)]; norm_num
    have h2 : √5 < (2236067977499789696409173668731276236 / 10 ^ 36 : ℝ) := by
      rw [Real.sqrt_lt' (by norm_num)]; norm_num
    push_cast
    constructor
    · refine le_trans ?_ (show (-(2236067977499789696409173668731276236 / 10 ^ 36) - 3) / 2 ≤
        (-√5 - 3) / 2 by linarith)
      norm_num
    · refine le_trans (show (-√5 - 3) / 2 ≤ (-(2236067977499789696409173668731276235 / 10 ^ 36) - 3) / 2
        by linarith) ?_
      norm_num

/-! ## C15: Newton step -/

/-- C15.  If the Newton step succeeds, its result lies inside the given ball and contains every root
that the given ball contains. -/
theorem C15_newton_step {A : ArbOps} {pol : List ℤ} {a b : Ball} {p : ℤ}
    (h : newtonStep A pol a p = .ok (some b)) :
    (∀ x ∈ b, x ∈ a) ∧ ∀ α ∈ a, (toPoly pol).IsRoot α → α ∈ b := by
  refine ⟨?_, fun α ha hα => (newtonStep_sound hα ha h).2.1⟩
  unfold newtonStep at h
  split_ifs at h with h1 h2
  by_cases h3 : (evalArb A (derivList pol) a p).containsZero = true
  · simp [h3] at h
  · simp only [h3, Bool.false_eq_true, if_false] at h
    cases a with
    | whole => intro x _; trivial
    | fin m r =>
      simp only at h
      split_ifs at h with h4
      swap
      · simp at h
      simp only [Res.ok.injEq, Option.some.injEq] at h
      rw [h] at h4
      have h5 : (Ball.fin m r).contains b = true := by
        simp only [Bool.and_eq_true] at h4; exact h4.1
      intro x hx
      cases b with
      | whole => simp [Ball.contains] at h5
      | fin m' r' =>
        simp only [Ball.contains, decide_eq_true_eq] at h5
        have e1 : (m : ℝ) - r ≤ m' - r' := by exact_mod_cast h5.1
        have e2 : (m' : ℝ) + r' ≤ m + r := by exact_mod_cast h5.2
        rw [Ball.mem_fin] at hx ⊢
        constructor <;> linarith [hx.1, hx.2]

/-- non-vacuity: a successful step for `x² - 2` on `[5/4, 3/2]` -/
example : (match newtonStep fpArb [-2, 0, 1] (.fin (11 / 8) (1 / 8)) 20 with
    | .ok (some _) => true | _ => false) = true := by decide +kernel

private theorem sqrt2_root : (toPoly [-2, 0, 1]).IsRoot √2 := by
  simp [toPoly]

private theorem sqrt2_bounds : 181 / 128 < √2 ∧ √2 < 91 / 64 := by
  constructor
  · exact Real.lt_sqrt_of_sq_lt (by norm_num)
  · exact (Real.sqrt_lt' (by norm_num)).2 (by norm_num)

/-- applied: the result is a smaller enclosure of `√2` -/
example : ∃ b, newtonStep fpArb [-2, 0, 1] (.fin (11 / 8) (1 / 8)) 20 = .ok (some b) ∧ √2 ∈ b ∧
    ∀ x ∈ b, x ∈ Ball.fin (11 / 8) (1 / 8) := by
  have h : (match newtonStep fpArb [-2, 0, 1] (.fin (11 / 8) (1 / 8)) 20 with
    | .ok (some _) => true | _ => false) = true := by decide +kernel
  split at h
  · rename_i b e
    refine ⟨b, e, (C15_newton_step e).2 _ ?_ sqrt2_root, (C15_newton_step e).1⟩
    rw [Ball.mem_fin]
    have := sqrt2_bounds
    push_cast
    constructor <;> linarith
  · cases h

/-! ## C16: bisection step -/

/-- C16, the full statement (false by `C16_counterexample`): if the given ball contains exactly one
root, a simple one, then so does the result.  Proved part: if there is no other root between the end
points rounded outwards to the working precision. -/
theorem C16_bisection_step_partial {A : ArbOps} {pol : List ℤ} {a b : Ball} {p : ℤ} (hp : 2 ≤ p)
    {α : ℝ} (hα : (toPoly pol).IsRoot α) (hd : (derivative (toPoly pol)).eval α ≠ 0) (ha : α ∈ a)
    (hu : ∀ l u, a.interval p = some (l, u) →
      ∀ β, (toPoly pol).IsRoot β → (l : ℝ) ≤ β → β ≤ u → β = α)
    (h : bisectionStep A pol a p = some b) : α ∈ b :=
  (bisectionStep_sound hp hα hd ha hu h).1

/-- non-vacuity: a successful step for `x² - 2` on `[5/4, 2]` -/
example : (bisectionStep fpArb [-2, 0, 1] (.fin (13 / 8) (3 / 8)) 20).isSome = true ∧
    (Ball.fin (13 / 8) (3 / 8)).interval 20 = some (5 / 4, 2) := by decide +kernel

/-- applied: the result contains `√2` -/
example : ∃ b, bisectionStep fpArb [-2, 0, 1] (.fin (13 / 8) (3 / 8)) 20 = some b ∧ √2 ∈ b := by
  obtain ⟨b, e⟩ := Option.isSome_iff_exists.1
    (show (bisectionStep fpArb [-2, 0, 1] (.fin (13 / 8) (3 / 8)) 20).isSome = true by decide +kernel)
  have hs := sqrt2_bounds
  refine ⟨b, e, C16_bisection_step_partial (by norm_num) sqrt2_root ?_ ?_ ?_ e⟩
  · simp [toPoly]
  · rw [Ball.mem_fin]
    push_cast
    constructor <;> linarith
  · intro l u h β hβ h1 h2
    rw [show (Ball.fin (13 / 8) (3 / 8)).interval 20 = some (5 / 4, 2) by decide +kernel] at h
    cases h
    simp [toPoly] at hβ
    have : (β - √2) * (β + √2) = 0 := by
      have := Real.sq_sqrt (show (0 : ℝ) ≤ 2 by norm_num)
      nlinarith
    rcases mul_eq_zero.1 this with h | h
    · linarith
    · push_cast at h1
      linarith

/-- C16 is FALSE of the code: for `x² + 3x + 1` and a ball that contains exactly one root the step at
9 bits succeeds and returns a ball without that root. -/
theorem C16_counterexample :
    ∃ b, bisectionStep fpArb K5.pol ball5 9 = some b ∧
      (∀ x ∈ ball5, (K5.IsRoot x ↔ x = (√5 - 3) / 2)) ∧ (√5 - 3) / 2 ∈ ball5 ∧
      (√5 - 3) / 2 ∉ b := by
  obtain ⟨_, -, -, -, h1, h2, -⟩ := C14_counterexample
  refine ⟨.fin (-119 / 64) (49 / 64), by decide +kernel, h1, h2, ?_⟩
  have hs := sqrt5_bounds
  rw [Ball.mem_fin]
  push_cast
  intro h
  linarith [h.2]

/-! ## C17: ball evaluation -/

/-- C17 for `fmpz_poly_evaluate_arb`. -/
theorem C17_evaluate_arb (A : ArbOps) {p : ℤ} (hp : 2 ≤ p) {a : Ball} {x : ℝ} (hx : x ∈ a)
    (pol : List ℤ) : (toPoly pol).eval x ∈ evalArb A pol a p :=
  evalArb_mem A hp hx pol

/-- C17 for `fmpq_poly_evaluate_arb`: the polynomial with numerators `num` and denominator `den`. -/
theorem C17_evaluate_arb_rational (A : ArbOps) {p : ℤ} (hp : 2 ≤ p) {a : Ball} {x : ℝ} (hx : x ∈ a)
    (num : List ℤ) {den : ℤ} (hd : den ≠ 0) :
    (toPoly num).eval x / (den : ℝ) ∈ evalArbQ A num den a p :=
  evalArbQ_mem A hp hx num hd

example : (3 / 2 : ℝ) ∈ Ball.fin (5 / 4) (1 / 4) ∧
    evalArb exactArb [-2, 0, 1] (.fin (5 / 4) (1 / 4)) 10 = .fin (-7 / 16) (11 / 16) := by
  refine ⟨?_, by decide +kernel⟩
  rw [Ball.mem_fin]; push_cast; constructor <;> norm_num

/-! ## C18: uniqueness check at construction -/

/-- C18, first half: an accepted ball contains at most one real root. -/
theorem C18_at_most_one {A : ArbOps} {F : Scale2} {n : ℕ} {pol : List ℤ} {a : Ball} {p : ℤ}
    (hlead : pol.getLastD 0 ≠ 0) (hrad : ∀ m r, a = .fin m r → 0 ≤ r)
    (h : checkUnique A F n pol a p = .ok true) :
    ∀ x ∈ a, ∀ y ∈ a, (toPoly pol).IsRoot x → (toPoly pol).IsRoot y → x = y :=
  (checkUnique_true hlead hrad h).1

/-- C18, the full statement (false by `C18_counterexample`): an accepted ball contains exactly one
real root.  Proved part: if the polynomial is linear or the end points of the ball are representable
at the given precision. -/
theorem C18_exactly_one_partial {A : ArbOps} {F : Scale2} {n : ℕ} {pol : List ℤ} {a : Ball} {p : ℤ}
    (hlead : pol.getLastD 0 ≠ 0) (hrad : ∀ m r, a = .fin m r → 0 ≤ r)
    (hrep : pol.length = 2 ∨ ∃ m r, a = .fin m r ∧ a.interval p = some (m - r, m + r))
    (h : checkUnique A F n pol a p = .ok true) : ∃! x, x ∈ a ∧ (toPoly pol).IsRoot x := by
  obtain ⟨h1, h2, h3⟩ := checkUnique_true hlead hrad h
  have hex : ∃ x ∈ a, (toPoly pol).IsRoot x := by
    by_cases hl : pol.length = 2
    · exact h2 hl
    · obtain ⟨m, r, rfl, hi⟩ := hrep.resolve_left hl
      obtain ⟨l, u, hi', x, k1, k2, k3⟩ := h3 hl
      rw [hi] at hi'
      simp only [Option.some.injEq, Prod.mk.injEq] at hi'
      rw [← hi'.1] at k1
      rw [← hi'.2] at k2
      push_cast at k1 k2
      refine ⟨x, ?_, k3⟩
      rw [Ball.mem_fin]
      constructor <;> linarith
  obtain ⟨x, hx, hr⟩ := hex
  exact ⟨x, ⟨hx, hr⟩, fun y ⟨hy, hr'⟩ => h1 y hy x hx hr' hr⟩

/-- C18, in general: there is a root between the end points rounded outwards to `p` bits. -/
theorem C18_root_near_partial {A : ArbOps} {F : Scale2} {n : ℕ} {pol : List ℤ} {a : Ball} {p : ℤ}
    (hlead : pol.getLastD 0 ≠ 0) (hrad : ∀ m r, a = .fin m r → 0 ≤ r) (h2 : pol.length ≠ 2)
    (h : checkUnique A F n pol a p = .ok true) :
    ∃ l u, a.interval p = some (l, u) ∧ ∃ x : ℝ, (l : ℝ) < x ∧ x < u ∧ (toPoly pol).IsRoot x :=
  (checkUnique_true hlead hrad h).2.2 h2

/-- C18, termination: on a polynomial with simple real roots the check returns. -/
theorem C18_terminates (A : ArbOps) (F : Scale2) (pol : List ℤ) (a : Ball) (prec : ℤ)
    (hprec : 2 ≤ prec) (hp : toPoly pol ≠ 0) (hs : SimpleRoots (toPoly pol) Set.univ) :
    ∃ n, ∀ fuel, n ≤ fuel → ∃ b, checkUnique A F fuel pol a prec = .ok b :=
  checkUnique_terminates A F pol a prec hprec hp hs

/-- non-vacuity: accepted by the derivative test, and by counting roots (`x³ - 3x + 1` has critical
points `±1`) -/
example : checkUnique fpArb scale2Simple 100 [-2, 0, 1] (.fin (11 / 8) (1 / 8)) 64 = .ok true ∧
    checkUnique fpArb scale2Simple 100 [1, -3, 0, 1] (.fin (3 / 4) (1 / 2)) 64 = .ok true ∧
    (Ball.fin (3 / 4) (1 / 2)).interval 64 = some (3 / 4 - 1 / 2, 3 / 4 + 1 / 2) := by
  decide +kernel

/-- applied: `x³ - 3x + 1` has exactly one root in `[1/4, 5/4]` -/
example : ∃! x, x ∈ Ball.fin (3 / 4) (1 / 2) ∧ (toPoly [1, -3, 0, 1]).IsRoot x :=
  C18_exactly_one_partial (A := fpArb) (F := scale2Simple) (n := 100) (p := 64) (by decide)
    (fun m r h => by cases h; norm_num) (.inr ⟨_, _, rfl, by decide +kernel⟩) (by decide +kernel)

/-- C18 is FALSE of the code: for `x² - 2`, 8 bits, the ball `[1449/1024, 2]` is accepted although it
contains no root; and `renf_init` then returns a field whose enclosure contains no root either. -/
theorem C18_counterexample :
    checkUnique fpArb scale2Simple 100 [-2, 0, 1] (.fin (3497 / 2048) (599 / 2048)) 8 = .ok true ∧
      (∀ x ∈ Ball.fin (3497 / 2048) (599 / 2048), ¬ (toPoly [-2, 0, 1]).IsRoot x) ∧
      ∃ f, renfInit fpArb scale2Simple false 100 200 [-2, 0, 1] (.fin (3497 / 2048) (599 / 2048)) 8 =
          .ok f ∧ ∀ x ∈ f.emb, ¬ (toPoly [-2, 0, 1]).IsRoot x := by
  have key : ∀ x : ℝ, 1449 / 1024 ≤ x → ¬ (toPoly [-2, 0, 1]).IsRoot x := by
    intro x hx h
    simp only [toPoly, IsRoot.def, eval_add, eval_C, eval_mul, eval_X, eval_zero] at h
    push_cast at h
    nlinarith
  refine ⟨by decide +kernel, fun x hx => ?_,
    ⟨⟨[-2, 0, 1]⟩, .fin (523717 / 262144) (603 / 262144), 8, false⟩, by decide +kernel,
    fun x hx => ?_⟩
  · rw [Ball.mem_fin] at hx
    push_cast at hx
    exact key x (by linarith [hx.1])
  · rw [Ball.mem_fin] at hx
    push_cast at hx
    exact key x (by linarith [hx.1])

/-! ## C19: equality of fields -/

/-- C19, one direction: fields with the same polynomial embedded at the same root are equal, whatever
their precisions. -/
theorem C19_same_root {f f' : Field} {d d' : ℤ} (hp : f.nf.pol = f'.nf.pol) (hd : d = d') {α : ℝ}
    (h1 : α ∈ f.emb) (h2 : α ∈ f'.emb) : renfEqual f d f' d' = true := by
  simp [renfEqual, hp, hd, Ball.overlaps_of_mem h1 h2]

/-- C19, other direction, the polynomials. -/
theorem C19_same_polynomial {f f' : Field} {d d' : ℤ} (h : renfEqual f d f' d' = true) :
    f.nf.pol = f'.nf.pol ∧ d = d' := by
  simp only [renfEqual, Bool.and_eq_true, decide_eq_true_eq] at h
  exact h.1

/-- C19, the full statement (false by `C19_counterexample`): equal fields are embedded at the same
root.  Proved part: if distinct roots are further apart than twice the sum of the radii. -/
theorem C19_equal_partial {f f' : Field} {d d' : ℤ} (h : renfEqual f d f' d' = true) {α β : ℝ}
    {m r m' r' : ℚ} (he : f.emb = .fin m r) (he' : f'.emb = .fin m' r')
    (hα : (toPoly f.nf.pol).IsRoot α) (hβ : (toPoly f'.nf.pol).IsRoot β) (h1 : α ∈ f.emb)
    (h2 : β ∈ f'.emb)
    (hsep : ∀ x y, (toPoly f.nf.pol).IsRoot x → (toPoly f.nf.pol).IsRoot y → x ≠ y →
      2 * ((r : ℝ) + r') < |x - y|) : α = β := by
  obtain ⟨hp, -⟩ := C19_same_polynomial h
  simp only [renfEqual, Bool.and_eq_true, decide_eq_true_eq] at h
  have ho := h.2
  rw [he] at ho h1
  rw [he'] at ho h2
  by_contra hne
  have hlt := hsep α β hα (hp ▸ hβ) hne
  simp only [Ball.overlaps, decide_eq_true_eq] at ho
  have g1 : (m : ℝ) - r ≤ m' + r' := by exact_mod_cast ho.1
  have g2 : (m' : ℝ) - r' ≤ m + r := by exact_mod_cast ho.2
  rw [Ball.mem_fin] at h1 h2
  rcases abs_cases (α - β) with ⟨e, _⟩ | ⟨e, _⟩ <;> rw [e] at hlt <;> linarith [h1.1, h1.2, h2.1, h2.2]

/-- non-vacuity: two enclosures of `√2` -/
example : renfEqual ⟨⟨[-2, 0, 1]⟩, .fin (11 / 8) (1 / 8), 64, false⟩ 1
    ⟨⟨[-2, 0, 1]⟩, .fin (181 / 128) (1 / 64), 64, true⟩ 1 = true ∧
    renfEqual ⟨⟨[-2, 0, 1]⟩, .fin (11 / 8) (1 / 8), 64, false⟩ 1
      ⟨⟨[-2, 0, 1]⟩, .fin (-11 / 8) (1 / 8), 64, true⟩ 1 = false := by decide +kernel

/-- applied: different enclosures of `√2` make equal fields; and equal fields with these enclosures are
embedded at the same root -/
example : renfEqual ⟨⟨[-2, 0, 1]⟩, .fin (11 / 8) (1 / 8), 64, false⟩ 1
      ⟨⟨[-2, 0, 1]⟩, .fin (181 / 128) (1 / 64), 64, true⟩ 1 = true ∧
    ∀ α β : ℝ, (toPoly [-2, 0, 1]).IsRoot α → (toPoly [-2, 0, 1]).IsRoot β → α ∈ Ball.fin (11 / 8) (1 / 8) →
      β ∈ Ball.fin (181 / 128) (1 / 64) → α = β := by
  have hs := sqrt2_bounds
  have h : renfEqual ⟨⟨[-2, 0, 1]⟩, .fin (11 / 8) (1 / 8), 64, false⟩ 1
      ⟨⟨[-2, 0, 1]⟩, .fin (181 / 128) (1 / 64), 64, true⟩ 1 = true := by
    refine C19_same_root rfl rfl (α := √2) ?_ ?_ <;> rw [Ball.mem_fin] <;> push_cast <;> constructor <;> linarith
  refine ⟨h, fun α β hα hβ h1 h2 => C19_equal_partial h rfl rfl hα hβ h1 h2 fun x y hx hy hne => ?_⟩
  have key : ∀ t : ℝ, (toPoly [-2, 0, 1]).IsRoot t → t = √2 ∨ t = -√2 := by
    intro t ht
    simp [toPoly] at ht
    have : (t - √2) * (t + √2) = 0 := by
      have := Real.sq_sqrt (show (0 : ℝ) ≤ 2 by norm_num)
      nlinarith
    rcases mul_eq_zero.1 this with h | h
    · left; linarith
    · right; linarith
  push_cast
  rcases key x hx with rfl | rfl <;> rcases key y hy with rfl | rfl
  · exact absurd rfl hne
  · rw [abs_of_pos] <;> linarith
  · rw [abs_of_neg] <;> linarith
  · exact absurd rfl hne

/-- `2^141 (x-1)² - 1`, with the roots `1 ± 2^-70.5` -/
def K6 : Nf := ⟨[2 ^ 141 - 1, -2 ^ 142, 2 ^ 141]⟩

theorem K6_ok : K6.Ok := by
  have h := quadratic_ok (a := 2 ^ 141) (b := -2 ^ 142) (c := 2 ^ 141 - 1) (by norm_num) (fun q hq => by
    have hq' : (q : ℝ) ^ 2 = 2 ^ 143 := by
      have : q ^ 2 = 2 ^ 143 := by rw [hq]; norm_num
      exact_mod_cast this
    apply irrational_sqrt_two
    refine ⟨|q| / 2 ^ 71, ?_⟩
    have : |(q : ℝ)| = √2 * 2 ^ 71 := by
      rw [← Real.sqrt_sq_eq_abs, hq', Real.sqrt_eq_iff_mul_self_eq (by positivity) (by positivity)]
      have hs : √2 * √2 = (2 : ℝ) := Real.mul_self_sqrt (by norm_num)
      linear_combination -(2 : ℝ) ^ 142 * hs
    push_cast
    rw [this]
    field_simp)
  exact h

theorem K6_roots (s : ℝ) (hs : s = 1 ∨ s = -1) : K6.IsRoot (1 + s * (√2 / 2 ^ 71)) := by
  have h2 : √2 ^ 2 = (2 : ℝ) := Real.sq_sqrt (by norm_num)
  have hs' : s ^ 2 = 1 := by rcases hs with rfl | rfl <;> norm_num
  show (toPoly K6.pol).eval _ = 0
  simp only [K6, toPoly, eval_add, eval_C, eval_mul, eval_X, eval_zero]
  push_cast
  ring_nf
  rw [h2, hs']
  norm_num

/-- C19 is FALSE of the code: both roots of `2^141 (x-1)² - 1` are near 1; `renf_init` with the
default precision 64 accepts `[1, 1+2^-64]` and `[1-2^-64, 1]` and the fields, which are embedded at
different roots, compare equal. -/
theorem C19_counterexample :
    ∃ f f' : Field, ∃ α β : ℝ,
      renfInit fpArb scale2Simple false 100 200 K6.pol
        (.fin (1 + 1 / 2 ^ 65) (1 / 2 ^ 65)) 64 = .ok f ∧
      renfInit fpArb scale2Simple false 100 200 K6.pol
        (.fin (1 - 1 / 2 ^ 66) (1 / 2 ^ 66)) 64 = .ok f' ∧
      K6.Ok ∧ K6.IsRoot α ∧ K6.IsRoot β ∧ α ∈ f.emb ∧ β ∈ f'.emb ∧ α ≠ β ∧
      α ∉ f'.emb ∧ β ∉ f.emb ∧ renfEqual f 1 f' 1 = true := by
  have h1 : (1 : ℝ) < √2 := by rw [Real.lt_sqrt (by norm_num)]; norm_num
  have h2 : √2 < (2 : ℝ) := by rw [Real.sqrt_lt' (by norm_num)]; norm_num
  have h3 : 0 < √2 / 2 ^ 71 := by positivity
  have h4 : √2 / 2 ^ 71 < 1 / 2 ^ 70 := by
    rw [div_lt_div_iff₀ (by positivity) (by positivity)]
    calc √2 * 2 ^ 70 < 2 * 2 ^ 70 := mul_lt_mul_of_pos_right h2 (by positivity)
      _ = _ := by norm_num
  refine ⟨⟨K6, .fin (1 + 1 / 2 ^ 65) (1 / 2 ^ 65), 64, false⟩,
    ⟨K6, .fin (1 - 1 / 2 ^ 66) (1 / 2 ^ 66), 64, false⟩, 1 + 1 * (√2 / 2 ^ 71),
    1 + -1 * (√2 / 2 ^ 71), by decide +kernel, by decide +kernel, K6_ok, K6_roots 1 (.inl rfl),
    K6_roots (-1) (.inr rfl), ?_, ?_, ?_, ?_, ?_, by decide +kernel⟩
  · rw [Ball.mem_fin]; push_cast; norm_num at h4 h3 ⊢; constructor <;> linarith
  · rw [Ball.mem_fin]; push_cast; norm_num at h4 h3 ⊢; constructor <;> linarith
  · intro h; linarith
  · rw [Ball.mem_fin]; push_cast; intro h; have := h.2; norm_num at h4 h3 this; linarith
  · rw [Ball.mem_fin]; push_cast; intro h; have := h.1; norm_num at h4 h3 this; linarith

/-! ## C28: affine rescaling -/

/-- C28.  `_fmpz_poly_scale_0_1_fmpq` returns a polynomial of the same length that is a nonzero
constant multiple of `p(a + (b-a) x)`. -/
theorem C28_scale_0_1 {p : List ℤ} {a b : ℚ} (hp : toPoly p ≠ 0) (hab : a ≠ b) :
    ∃ r, scale01 p a b = .ok r ∧ r.length = p.length ∧ ∃ c : ℝ, c ≠ 0 ∧
      ∀ x : ℝ, (toPoly r).eval x = c * (toPoly p).eval (a + (b - a) * x) := by
  obtain ⟨r, h1, h2, c, hc, e⟩ := scale01_spec hp hab
  refine ⟨r, h1, h2, c, hc, fun x => ?_⟩
  rw [e]
  simp only [eval_mul, eval_C, eval_comp, eval_add, eval_X]
  congr 2; ring

/-- C28, roots in `(0,1)` of the result and roots of `p` in `(a,b)`, with multiplicities. -/
theorem C28_root_count {p r : List ℤ} {a b : ℚ} (hp : toPoly p ≠ 0) (hab : a < b)
    (h : scale01 p a b = .ok r) :
    rootCount (toPoly r) (Set.Ioo 0 1) = rootCount (toPoly p) (Set.Ioo (a : ℝ) b) := by
  have hpos : (0 : ℝ) < b - a := by
    have : (a : ℝ) < b := by exact_mod_cast hab
    linarith
  refine scale01_rootCount hp hab.ne h _ _ fun x => ?_
  simp only [Set.mem_Ioo]
  constructor
  · rintro ⟨k1, k2⟩
    constructor
    · by_contra hx; nlinarith
    · by_contra hx; nlinarith
  · rintro ⟨k1, k2⟩
    constructor <;> nlinarith

example : scale01 [-2, 0, 1] (-1 / 3) (3 / 2) = .ok [-68, -44, 121] := by decide +kernel

/-- applied: the roots of `x² - 2` in `(-1/3, 3/2)` are those of the scaled polynomial in `(0,1)` -/
example : rootCount (toPoly [-68, -44, 121]) (Set.Ioo 0 1) =
    rootCount (toPoly [-2, 0, 1]) (Set.Ioo ((-1 / 3 : ℚ) : ℝ) (3 / 2 : ℚ)) :=
  C28_root_count (toPoly_ne_of_lead (by decide)) (by norm_num) (by decide +kernel)

/-! ## C42: immutability flag -/

/-- C42: a refinement of a field flagged immutable is stopped in a checking build. -/
theorem C42_refine_immutable {A : ArbOps} {n : ℕ} {f : Field} {p : ℤ} (h : f.immutable = true) :
    refineEmbedding A false n f p = .abort := by
  simp [refineEmbedding, h]

/-- C42: a refinement does not change the flag; in a checking build it is not set before or after. -/
theorem C42_refine_flag {A : ArbOps} {nd : Bool} {n : ℕ} {f f' : Field} {p : ℤ}
    (h : refineEmbedding A nd n f p = .ok f') :
    f'.immutable = f.immutable ∧ (nd = false → f'.immutable = false) := by
  obtain ⟨_, b, -, -, rfl, h1⟩ := refineEmbedding_cases h
  refine ⟨rfl, fun h2 => ?_⟩
  cases h3 : f.immutable with
  | false => rfl
  | true => rw [h1 h3] at h2; simp at h2

/-- C42: `renf_set_immutable` sets the flag, changes nothing else and returns the previous value. -/
theorem C42_set_immutable (f : Field) (flag : Bool) :
    (setImmutable f flag).1 = f.immutable ∧ (setImmutable f flag).2.immutable = flag ∧
      (setImmutable f flag).2.nf = f.nf ∧ (setImmutable f flag).2.emb = f.emb ∧
      (setImmutable f flag).2.prec = f.prec := ⟨rfl, rfl, rfl, rfl, rfl⟩

/-- C42: in a build without assertions the flag does not stop a refinement. -/
theorem C42_ndebug_ignores : ∃ f', refineEmbedding exactArb true 64 { fld3 with immutable := true } 10 =
    .ok f' ∧ f'.emb ≠ fld3.emb := by
  have : (match refineEmbedding exactArb true 64 { fld3 with immutable := true } 10 with
      | .ok f' => decide (f'.emb ≠ fld3.emb) | _ => false) = true := by decide +kernel
  split at this
  · exact ⟨_, by assumption, by simpa using this⟩
  · simp at this

/-! ## C45: condition numbers -/

/-- C45, the full statement (false by `C45_counterexample` and `C45_counterexample_infinite`):
`Σ |pᵢ| |t|ⁱ < 2^c` on the ball.  Proved part: if the leading coefficient is not negative and the ball
is finite. -/
theorem C45_condition_number_partial {l : List ℤ} {x : Ball} {p c : ℤ} (hp : 2 ≤ p) (hx : x ≠ .whole)
    (hl : 0 ≤ l.getLastD 0) (h : condNumber l x p = some c) :
    ∀ t ∈ x, (toPoly (l.map (|·|))).eval |t| < (2 : ℝ) ^ c :=
  fun _ ht => (condNumber_bound hp hx h ht).2 hl

/-- C45 for every polynomial: off by at most one bit. -/
theorem C45_condition_number_off_by_one_partial {l : List ℤ} {x : Ball} {p c : ℤ} (hp : 2 ≤ p)
    (hx : x ≠ .whole) (h : condNumber l x p = some c) :
    ∀ t ∈ x, (toPoly (l.map (|·|))).eval |t| < (2 : ℝ) ^ (c + 1) :=
  fun _ ht => (condNumber_bound hp hx h ht).1

example : condNumber [-2, 5, 1] (.fin (5 / 4) (1 / 4)) 32 = some 4 := by decide +kernel

/-- applied: `2 + 5 |t| + |t|²` is less than 16 on `[1, 3/2]` -/
example : ∀ t ∈ Ball.fin (5 / 4) (1 / 4), (toPoly (([-2, 5, 1] : List ℤ).map (|·|))).eval |t| < (2 : ℝ) ^ (4 : ℤ) :=
  C45_condition_number_partial (p := 32) (by norm_num) (by simp) (by decide) (by decide +kernel)

/-- C45 is FALSE of the code: a negative leading coefficient is rounded towards zero.  At 32 bits,
the precision at which the code uses it, `-(2^33+3) x` at `1 - 2^-32` has the condition number 33, but
the absolute value is at least `2^33`. -/
theorem C45_counterexample :
    condNumber [0, -(2 ^ 33 + 3)] (.fin (1 - 1 / 2 ^ 32) 0) 32 = some 33 ∧
      ∃ t ∈ Ball.fin (1 - 1 / 2 ^ 32) 0,
        (2 : ℝ) ^ (33 : ℤ) ≤ (toPoly (([0, -(2 ^ 33 + 3)] : List ℤ).map (|·|))).eval |t| := by
  refine ⟨by decide +kernel, 1 - 1 / 2 ^ 32, ?_, ?_⟩
  · rw [Ball.mem_fin]; push_cast; norm_num
  · have e : |(1 - 1 / 2 ^ 32 : ℝ)| = 1 - 1 / 2 ^ 32 := abs_of_pos (by norm_num)
    rw [e]
    simp only [List.map, toPoly, eval_add, eval_C, eval_mul, eval_X, eval_zero]
    norm_num

/-- C45 is FALSE of the code for infinite balls, too: the number 0 is reported, with success. -/
theorem C45_counterexample_infinite :
    condNumber [0, 1] .whole 64 = some 0 ∧
      ∃ t ∈ Ball.whole, (2 : ℝ) ^ (0 : ℤ) ≤ (toPoly (([0, 1] : List ℤ).map (|·|))).eval |t| := by
  refine ⟨by decide +kernel, 1, trivial, ?_⟩
  simp [toPoly]

/-! ## C20: n-th root fields -/

theorem eval_nthRootPol (d : ℚ) {n : ℕ} (hn : 1 ≤ n) (x : ℝ) :
    (toPoly (nthRootPol d n)).eval x = (d.den : ℝ) * x ^ n - d.num := by
  have h : ∀ k : ℕ, ∀ c : ℤ, (toPoly (List.replicate k 0 ++ [c])).eval x = c * x ^ k := by
    intro k c
    induction k with
    | zero => simp [toPoly]
    | succ k ih =>
      simp only [List.replicate_succ, List.cons_append, toPoly, eval_add, eval_C, eval_mul, eval_X, ih]
      push_cast; ring
  obtain ⟨k, rfl⟩ : ∃ k, n = k + 1 := ⟨n - 1, by omega⟩
  simp only [nthRootPol, toPoly, eval_add, eval_C, eval_mul, eval_X, Nat.add_sub_cancel, h]
  push_cast; ring

/-- The real roots of the polynomial that the code builds are the real `n`-th roots of `d`. -/
theorem nthRootPol_root {d : ℚ} {n : ℕ} (hn : 1 ≤ n) (x : ℝ) :
    (toPoly (nthRootPol d n)).IsRoot x ↔ x ^ n = d := by
  have hd : (d.den : ℝ) ≠ 0 := by exact_mod_cast d.den_nz
  have e : (d : ℝ) = d.num / d.den := by
    have := Rat.num_div_den d
    exact_mod_cast congrArg (Rat.cast : ℚ → ℝ) this.symm
  rw [IsRoot.def, eval_nthRootPol d hn, e, eq_div_iff hd, sub_eq_zero, mul_comm]

/-- C20, the full statement: the constructed field is `x^n - d` embedded at the positive `n`-th root.
Proved part: if `x^n - d` is irreducible (a precondition of `nf_init`), when the refinement cannot
leave the root; for odd `n` see `C20_nth_root_odd`. -/
theorem C20_nth_root_partial {A : ArbOps} {F : Scale2} {nd : Bool} {n₁ n₂ : ℕ} {d : ℚ} {n : ℕ}
    {prec : ℤ} {f : Field} (hn : 1 ≤ n) (hK : (⟨nthRootPol d n⟩ : Nf).Ok) {α : ℝ} (hα : 0 < α)
    (hd : α ^ n = d)
    (hs : Secure A (nthRootPol d n) α n₂ (A.rootUi (A.setFmpq d prec) n prec))
    (h : renfInitNthRoot A F nd n₁ n₂ d n prec = .ok f) :
    f.nf.pol = nthRootPol d n ∧ f.nf.IsRoot α ∧ α ∈ f.emb := by
  unfold renfInitNthRoot at h
  split_ifs at h with h1 h2
  push Not at h2
  have hp : 2 ≤ prec := by
    have := h2.2
    simp [guardPrec] at this
    omega
  have hr := (nthRootPol_root (d := d) hn α).2 hd
  have hm : α ∈ A.rootUi (A.setFmpq d prec) n prec :=
    A.rootUi_mem hp (by omega) hα.le (hd ▸ A.setFmpq_mem hp)
  obtain ⟨g1, g2, -⟩ := renfInit_keeps hK hr hm hs h
  rw [g1]
  exact ⟨rfl, hr, g2⟩

/-- C20 for odd `n`. -/
theorem C20_nth_root_odd {A : ArbOps} {F : Scale2} {nd : Bool} {n₁ n₂ : ℕ} {d : ℚ} {n : ℕ}
    {prec : ℤ} {f : Field} (hn : Odd n) (hK : (⟨nthRootPol d n⟩ : Nf).Ok) {α : ℝ} (hα : 0 < α)
    (hd : α ^ n = d) (h : renfInitNthRoot A F nd n₁ n₂ d n prec = .ok f) :
    f.nf.pol = nthRootPol d n ∧ f.nf.IsRoot α ∧ α ∈ f.emb := by
  have h1 : 1 ≤ n := hn.pos
  refine C20_nth_root_partial h1 hK hα hd (.inl fun β hβ => ?_) h
  rw [nthRootPol_root h1, ← hd] at hβ
  exact hn.strictMono_pow.injective hβ

/-- negative radicands are refused -/
theorem C20_negative {A : ArbOps} {F : Scale2} {nd : Bool} {n₁ n₂ : ℕ} {d : ℚ} {n : ℕ} {prec : ℤ}
    (hd : d < 0) : renfInitNthRoot A F nd n₁ n₂ d n prec = .abort := by
  unfold renfInitNthRoot
  rw [if_pos (Rat.num_neg.2 hd)]

/-- non-vacuity: the construction of `∛2` -/
example : (∃ f, renfInitNthRoot fpArb scale2Simple false 60 200 2 3 64 = .ok f ∧
    f.nf.pol = nthRootPol 2 3 ∧ f.nf.IsRoot cbrt2 ∧ cbrt2 ∈ f.emb) := by
  have : (match renfInitNthRoot fpArb scale2Simple false 60 200 2 3 64 with
      | .ok _ => true | _ => false) = true := by decide +kernel
  split at this
  · rename_i f hf
    exact ⟨f, hf, C20_nth_root_odd (n := 3) (d := 2) ⟨1, rfl⟩
      (by have e : nthRootPol 2 3 = K3.pol := by decide +kernel
          rw [e]; exact K3_ok) cbrt2_pos (by rw [cbrt2_pow]; norm_num) hf⟩
  · simp at this

/-! ## C47: all real embeddings -/

/-- C47, the full statement (false by `C47_counterexample`): one field for each real root, each
embedded at a different root.  Proved part: under the sign condition of C23 (so that all roots are
found), if the numerators of the isolating intervals are not rounded, and if the refinement cannot
leave the isolated root. -/
theorem C47_set_embeddings_partial {A : ArbOps} {F : Scale2} {flog0 : ℤ} {nd : Bool} {n₁ n₂ : ℕ}
    {pol : List ℤ} {lim : ℕ} {prec : ℤ} {fs : List Field} {n : ℕ} (hK : (⟨pol⟩ : Nf).Ok)
    (hok : chargesOk flog0 (stripZeros pol).2 = true)
    (hok' : chargesOk flog0 (negOdd (stripZeros pol).2) = true)
    {ex : List ℚ} {Is : List (ℤ × ℤ)} (hiso : isolateRealRoots F flog0 n₁ pol = .ok (ex, Is))
    (hfit : ∀ I ∈ Is, |2 * (I.1 : ℚ) + 1| < 2 ^ prec)
    (hsec : ∀ I ∈ Is, ∀ α ∈ ivl I, (toPoly pol).IsRoot α →
      Secure A pol α n₂ (embeddingBall prec I))
    (hlim : n ≤ lim) (h : setEmbeddings A F flog0 nd n₁ n₂ pol lim prec = .ok (fs, n)) :
    n = rootCount (toPoly pol) Set.univ ∧
    ∃ αs : List ℝ, αs.Pairwise (· < ·) ∧ (∀ α, (toPoly pol).IsRoot α ↔ α ∈ αs) ∧
      List.Forall₂ (fun α f => f.nf.pol = pol ∧ α ∈ f.emb) αs fs := by
  have hl : pol.getLastD 0 ≠ 0 := hK.lead
  have hP : toPoly pol ≠ 0 := toPoly_ne_of_lead hl
  unfold setEmbeddings at h
  obtain ⟨_, -, h⟩ := Res.bind_eq_ok.1 h
  obtain ⟨r, hr, h⟩ := Res.bind_eq_ok.1 h
  rw [hiso] at hr
  simp only [Res.ok.injEq] at hr
  subst hr
  simp only at h
  by_cases hex : ex = []
  swap
  · rw [if_pos hex] at h; simp at h
  rw [if_neg (by simpa using hex)] at h
  obtain ⟨gs, hgs, h⟩ := Res.bind_eq_ok.1 h
  simp only [Res.ok.injEq, Prod.mk.injEq] at h
  obtain ⟨rfl, rfl⟩ := h
  rw [List.take_of_length_le hlim] at hgs
  have hI := isolateRealRoots_univ F flog0 n₁ pol hl hok hok' _ hiso
  subst hex
  refine ⟨by simpa using hI.count.symm, ?_⟩
  have hroot : ∀ I ∈ Is, ∃ α ∈ ivl I, (toPoly pol).IsRoot α := by
    intro I hIm
    have := (rootCount_pos_iff hP (ivl I)).1 (by rw [hI.ivl_count I hIm]; exact one_pos)
    exact this
  choose! g hg1 hg2 using hroot
  refine ⟨Is.map g, ?_, ?_, ?_⟩
  · rw [List.pairwise_map]
    have h1 := hI.ivs_sorted
    refine List.Pairwise.imp_of_mem ?_ h1
    intro I J hIm hJm hIJ
    have a1 := (hg1 I hIm).2
    have a2 := (hg1 J hJm).1
    linarith
  · intro α
    constructor
    · intro hα
      rcases hI.cover α (Set.mem_univ _) hα with ⟨e, he, -⟩ | ⟨I, hIm, hαI⟩
      · simp at he
      · refine List.mem_map.2 ⟨I, hIm, ?_⟩
        exact rootCount_one hP (hI.ivl_count I hIm) (hg1 I hIm) (hg2 I hIm) hαI hα
    · intro hα
      obtain ⟨I, hIm, rfl⟩ := List.mem_map.1 hα
      exact hg2 I hIm
  · have hf := initAll_forall hgs
    rw [List.forall₂_map_left_iff]
    have hmem : ∀ I ∈ Is, I ∈ Is := fun _ h => h
    clear hI hgs hiso hlim
    revert hmem
    suffices ∀ (Js : List (ℤ × ℤ)) (fs : List Field), (∀ I ∈ Js, I ∈ Is) →
        List.Forall₂ (fun I f => renfInit A F nd n₁ n₂ pol (embeddingBall prec I) prec = .ok f) Js fs →
        List.Forall₂ (fun I f => f.nf.pol = pol ∧ g I ∈ f.emb) Js fs from
      fun hm => this _ _ hm hf
    intro Js fs hm hF
    induction hF with
    | nil => exact .nil
    | @cons I f Js fs hx _ ih =>
      refine .cons ?_ (ih fun J hJ => hm J (List.mem_cons_of_mem _ hJ))
      have hIm := hm I List.mem_cons_self
      have hin : g I ∈ embeddingBall prec I :=
        (mem_embeddingBall (hfit I hIm)).2 ⟨(hg1 I hIm).1.le, (hg1 I hIm).2.le⟩
      obtain ⟨k1, k2, -⟩ := renfInit_keeps hK (hg2 I hIm) hin
        (hsec I hIm _ (hg1 I hIm) (hg2 I hIm)) hx
      rw [k1]
      exact ⟨rfl, k2⟩

/-- the condition of C47 on the refinement holds if intersections do not grow -/
theorem secure_of_interSub {A : ArbOps} (hA : A.InterSub) {pol : List ℤ} (hK : (⟨pol⟩ : Nf).Ok)
    (h3 : pol.length ≠ 2) {prec : ℤ} {I : ℤ × ℤ} (hfit : |2 * (I.1 : ℚ) + 1| < 2 ^ prec)
    (hc : rootCount (toPoly pol) (ivl I) = 1) {α : ℝ} (hα : α ∈ ivl I) (hr : (toPoly pol).IsRoot α)
    (n₂ : ℕ) : Secure A pol α n₂ (embeddingBall prec I) := by
  have hP : toPoly pol ≠ 0 := toPoly_ne_of_lead hK.lead
  refine .inr (.inr ⟨hA, I.1, I.2, ?_, ?_⟩)
  · intro m r e
    unfold embeddingBall at e
    rw [arfRound_small (by push_cast; rw [mul_comm]; exact hfit)] at e
    injection e with e1 e2
    have e : (2 : ℚ) ^ I.2 = 2 ^ (I.2 - 1) * 2 := by
      rw [← zpow_add_one₀ (by norm_num)]; congr 1; ring
    unfold InCell
    rw [← e1, ← e2, e]
    push_cast
    constructor <;> linarith
  · intro β hβ h1 h2
    have key : ∀ q : ℚ, ¬ (toPoly pol).IsRoot (q : ℝ) := by
      intro q hq
      have hq' : (toPolyQ pol).IsRoot q := by
        have : (toPolyQ pol).aeval (q : ℝ) = 0 := by
          rw [toPoly_eq_map, IsRoot.def, eval_map_algebraMap] at hq; exact hq
        have h0 : (toPolyQ pol).aeval (algebraMap ℚ ℝ q) = 0 := this
        rw [aeval_algebraMap_apply] at h0
        exact (algebraMap ℚ ℝ).injective (by simpa using h0)
      have hdeg := degree_eq_one_of_irreducible_of_root hK.irr hq'
      have hn : (toPolyQ pol).natDegree = pol.length - 1 := natDegree_pol hK
      rw [degree_eq_natDegree hK.irr.ne_zero, hn] at hdeg
      have h2 := hK.two_le
      simp only at h2
      have : pol.length - 1 = 1 := by exact_mod_cast hdeg
      omega
    refine rootCount_one hP hc ⟨lt_of_le_of_ne h1 ?_, lt_of_le_of_ne h2 ?_⟩ hβ hα hr
    · intro e
      apply key ((I.1 : ℚ) * 2 ^ I.2)
      push_cast
      rwa [e]
    · intro e
      apply key (((I.1 : ℚ) + 1) * 2 ^ I.2)
      push_cast
      rwa [← e]

theorem exactArb_interSub : exactArb.InterSub := by
  intro a m r p m' r' _ h
  cases a with
  | whole =>
    simp only [exactArb, Ball.xinter] at h
    injection h with h1 h2
    rw [h1, h2]
    exact ⟨le_rfl, le_rfl⟩
  | fin m₁ r₁ =>
    simp only [exactArb, Ball.xinter, Ball.ofEnds] at h
    injection h with h1 h2
    have g1 := le_max_right (m₁ - r₁) (m - r)
    have g2 := min_le_right (m₁ + r₁) (m + r)
    constructor <;> linarith

/-- the field of `x² - 2` -/
def K2 : Nf := ⟨[-2, 0, 1]⟩

theorem K2_ok : K2.Ok := by
  refine quadratic_ok (by norm_num) fun q hq => irrational_sqrt_two ⟨|q| / 2, ?_⟩
  have hq' : (q : ℝ) ^ 2 = 8 := by
    have : q ^ 2 = 8 := by rw [hq]; norm_num
    exact_mod_cast this
  have : |(q : ℝ)| = √2 * 2 := by
    rw [← Real.sqrt_sq_eq_abs, hq', Real.sqrt_eq_iff_mul_self_eq (by positivity) (by positivity)]
    have hs : √2 * √2 = (2 : ℝ) := Real.mul_self_sqrt (by norm_num)
    linear_combination -(4 : ℝ) * hs
  push_cast
  rw [this]
  field_simp

/-- non-vacuity: the two embeddings of `x² - 2` -/
example : ∃ f g, setEmbeddings exactArb scale2Simple (-1) false 60 200 K2.pol 10 64 = .ok ([f, g], 2) ∧
    ∃ α β : ℝ, α < β ∧ (∀ x, K2.IsRoot x ↔ x = α ∨ x = β) ∧ α ∈ f.emb ∧ β ∈ g.emb := by
  have : (match setEmbeddings exactArb scale2Simple (-1) false 60 200 K2.pol 10 64 with
      | .ok ([_, _], 2) => true | _ => false) = true := by decide +kernel
  split at this
  · rename_i f g hf
    have hiso : isolateRealRoots scale2Simple (-1) 60 K2.pol = .ok ([], [(-1, 1), (0, 1)]) := by
      decide +kernel
    have hfit : ∀ I ∈ [((-1 : ℤ), (1 : ℤ)), (0, 1)], |2 * (I.1 : ℚ) + 1| < 2 ^ (64 : ℤ) := by
      decide +kernel
    have hcnt := (isolateRealRoots_univ scale2Simple (-1) 60 K2.pol K2_ok.lead (by decide +kernel)
      (by decide +kernel) _ hiso).ivl_count
    obtain ⟨-, αs, h1, h2, h3⟩ := C47_set_embeddings_partial (A := exactArb) K2_ok (by decide +kernel)
      (by decide +kernel) hiso hfit (fun I hI α hα hr => secure_of_interSub exactArb_interSub K2_ok
        (by decide) (hfit I hI) (hcnt I hI) hα hr 200) (by norm_num) hf
    refine ⟨f, g, hf, ?_⟩
    match αs, h3 with
    | [α, β], .cons k1 (.cons k2 .nil) =>
      refine ⟨α, β, by simpa using h1, fun x => ?_, k1.2, k2.2⟩
      refine (h2 x).trans ?_
      simp
  · simp at this

/-- `x⁴ - 2x³ - 4x² - 16x - 30` -/
def K4 : Nf := ⟨[-30, -16, -4, -2, 1]⟩

theorem K4_ok : K4.Ok where
  two_le := by decide
  lead := by decide
  irr := by
    have e : toPolyQ K4.pol = (X ^ 4 - C 2 * X ^ 3 - C 4 * X ^ 2 - C 16 * X - C 30 : ℤ[X]).map
        (Int.castRingHom ℚ) := by
      simp only [K4, toPolyQ, Polynomial.map_sub, Polynomial.map_mul, Polynomial.map_pow, map_X, map_C]
      norm_num
      ring
    have hm : (X ^ 4 - C 2 * X ^ 3 - C 4 * X ^ 2 - C 16 * X - C 30 : ℤ[X]).Monic := by
      monicity!
    have hdeg : (X ^ 4 - C 2 * X ^ 3 - C 4 * X ^ 2 - C 16 * X - C 30 : ℤ[X]).natDegree = 4 := by
      compute_degree!
    rw [e]
    have : IsIntegrallyClosed ℤ := GCDMonoid.toIsIntegrallyClosed
    refine (hm.irreducible_iff_irreducible_map_fraction_map (K := ℚ)).1 ?_
    have hprime : (Ideal.span {(2 : ℤ)}).IsPrime :=
      (Ideal.span_singleton_prime (by norm_num)).2 Int.prime_two
    refine IsEisensteinAt.irreducible (𝓟 := Ideal.span {(2 : ℤ)}) ⟨?_, ?_, ?_⟩ hprime hm.isPrimitive
      (by rw [hdeg]; norm_num)
    · rw [hm.leadingCoeff, Ideal.mem_span_singleton]; decide
    · intro k hk
      rw [hdeg] at hk
      rw [Ideal.mem_span_singleton]
      interval_cases k <;> simp [coeff_X] <;> decide
    · rw [Ideal.span_singleton_pow, Ideal.mem_span_singleton]
      simp [coeff_X]

/-- C47 is FALSE of the code: for the irreducible polynomial `x⁴ - 2x³ - 4x² - 16x - 30`, which has a
root in `(4,5)` besides a negative one, one embedding is returned. -/
theorem C47_counterexample :
    (∃ f, setEmbeddings fpArb scale2Simple (-1) false 60 200 K4.pol 10 64 = .ok ([f], 1)) ∧ K4.Ok ∧
      ∃ x y : ℝ, x ≠ y ∧ K4.IsRoot x ∧ K4.IsRoot y := by
  refine ⟨?_, K4_ok, ?_⟩
  · have : (match setEmbeddings fpArb scale2Simple (-1) false 60 200 K4.pol 10 64 with
      | .ok ([_], 1) => true | _ => false) = true := by decide +kernel
    split at this
    · exact ⟨_, by assumption⟩
    · simp at this
  · have h1 : (toPoly K4.pol).eval 4 < 0 := by simp [K4, toPoly]; norm_num
    have h2 : 0 < (toPoly K4.pol).eval 5 := by simp [K4, toPoly]; norm_num
    have h3 : (toPoly K4.pol).eval 0 < 0 := by simp [K4, toPoly]
    have h4 : 0 < (toPoly K4.pol).eval (-2) := by simp [K4, toPoly]; norm_num
    obtain ⟨x, hx, hx'⟩ := intermediate_value_Ioo (by norm_num)
      (toPoly K4.pol).continuous.continuousOn ⟨h1, h2⟩
    obtain ⟨y, hy, hy'⟩ := intermediate_value_Ioo' (by norm_num)
      (toPoly K4.pol).continuous.continuousOn ⟨h3, h4⟩
    exact ⟨x, y, by rintro rfl; linarith [hx.1, hy.2], hx', hy'⟩

end EAntic
