import Verif.Spec.Query
import Verif.Lemmas.Ops
import Verif.Lemmas.Demo
import Verif.Lemmas.DemoSqrt

/-!
# Properties of element operations and queries (C01–C13, C43)

Setting of all theorems: `K` is the number field, `α` the real root it is embedded at, `E` collects
the contracts of Arb and Antic and the refinement routine, `s` is the memory (the field with its
enclosure, and all elements).  `Rep K α I v s` says that in memory `s` the element at pointer `r`
denotes the real number `v r`, is stored in canonical form, and that all enclosures are valid.  The
theorems hold whatever refinement routine is plugged in, as long as it keeps the root (`FieldInv`,
see C14); `C01_enclosures_unique_root` and `C01_enclosures_apart_partial` plug in the modelled
`renf_refine_embedding`.
-/

namespace EAntic

variable {K : Nf} {E : Env K} {α : ℝ} {I : Field → Prop} {v : Reg → ℝ} {s s' : Mem}

theorem freshMem_rep (hE : FieldInv E α I) {f : Field} (hf : I f) :
    Rep K α I (fun _ => 0) (freshMem f) where
  inv := hf
  wf _ := by show (NfElem.init f.nf).Wf K; rw [hE.nf hf]; exact init_wf hE.ok
  val _ := by show (NfElem.init f.nf).val α = 0; rw [hE.nf hf]; exact init_val
  enc _ := Ball.mem_exact.2 (by simp)

/-! ## C01: every enclosure contains the exact value, for ever -/

/-- After any sequence of calls, starting from newly created elements, every element's ball contains
its exact value and the field's ball contains the root.  Partial: the refinement routine is assumed
to keep the root. -/
theorem C01_enclosures_partial (hE : FieldInv E α I) {f : Field} (hf : I f) {ops : List Op}
    {as : List Ans} (h : E.run ops (freshMem f) = .ok (as, s')) :
    α ∈ s'.fld.emb ∧ ∀ a, (s'.heap (.user a)).elem.val α ∈ (s'.heap (.user a)).emb := by
  obtain ⟨v', hv, -⟩ := run_spec hE ops _ _ _ _ (freshMem_rep hE hf) h
  exact ⟨hE.enc hv.inv, fun a => by rw [hv.val]; exact hv.enc _⟩

/-- C01 for fields whose polynomial has no other real root, with the modelled refinement: no
assumption about the refinement is left. -/
theorem C01_enclosures_unique_root (hK : K.Ok) (hα : K.IsRoot α)
    (hu : ∀ β, (toPoly K.pol).IsRoot β → β = α) {nd : Bool} {n : ℕ}
    (hr : E.refine = refineEmbedding E.A nd n) {f : Field} (hf : f.nf = K) (hp : 2 ≤ f.prec)
    (he : α ∈ f.emb) {ops : List Op} {as : List Ans}
    (h : E.run ops (freshMem f) = .ok (as, s')) :
    α ∈ s'.fld.emb ∧ ∀ a, (s'.heap (.user a)).elem.val α ∈ (s'.heap (.user a)).emb :=
  C01_enclosures_partial (goodField_inv hK hα (.inr hu) hr)
    ⟨hf, hp, he, fun _ _ _ β hβ hne => absurd (hu β hβ) hne⟩ h

/-- C01 for fields with several real roots, with the modelled refinement.  Partial: the first
enclosure is narrower than a quarter of the distance to the other roots, and the intersection of
two balls never has a larger radius than the second one (Arb may exceed it by rounding). -/
theorem C01_enclosures_apart_partial (hK : K.Ok) (hα : K.IsRoot α) (hA : E.A.InterGrow 1)
    {nd : Bool} {n : ℕ} (hr : E.refine = refineEmbedding E.A nd n) {f : Field} (hf : f.nf = K)
    (hp : 2 ≤ f.prec) {m r : ℚ} (hm : f.emb = .fin m r) (he : α ∈ f.emb)
    (hap : ∀ β, (toPoly K.pol).IsRoot β → β ≠ α → 4 * (r : ℝ) < |β - α|)
    {ops : List Op} {as : List Ans} (h : E.run ops (freshMem f) = .ok (as, s')) :
    α ∈ s'.fld.emb ∧ ∀ a, (s'.heap (.user a)).elem.val α ∈ (s'.heap (.user a)).emb := by
  refine C01_enclosures_partial (goodField_inv hK hα (.inl hA) hr) ⟨hf, hp, he, ?_⟩ h
  intro m' r' e
  rw [hm] at e
  injection e with _ e
  rw [← e]
  exact hap

/-- a program with arithmetic, aliasing, refinement and queries -/
def demoProg : List Op :=
  [.gen 0, .setQ 1 (5 / 3), .sub 2 0 1, .sgn 2, .mul 2 2 2, .inv 3 2, .refine 200, .floor 3,
    .cmp 3 0, .add 3 3 3, .fdiv 3 0, .getCfrac 4 0 5, .getD 3 .near]

/-- the program runs to its end -/
theorem demoProg_runs : ∃ as s', env3.run demoProg (freshMem fld3) = .ok (as, s') := by
  have h : out (env3.run demoProg) (freshMem fld3) = some
    [.unit, .unit, .unit, .int (-1), .unit, .unit, .unit, .int 6, .int 1, .unit, .int 9,
      .terms [1, 3, 1, 5, 1], .dbl (.fin (6805405694269099 / 562949953421312))] := by
    decide +kernel
  obtain ⟨s', h⟩ := out_eq_some h
  exact ⟨_, s', h⟩

example : ∃ as s', env3.run demoProg (freshMem fld3) = .ok (as, s') ∧ cbrt2 ∈ s'.fld.emb ∧
    ∀ a, (s'.heap (.user a)).elem.val cbrt2 ∈ (s'.heap (.user a)).emb := by
  obtain ⟨as, s', h⟩ := demoProg_runs
  exact ⟨as, s', h, C01_enclosures_unique_root K3_ok K3_root K3_unique (nd := false) (n := 64) rfl
    (f := fld3) rfl (by decide) fld3_good.enc h⟩

/-- `C01_enclosures_partial` on the same run -/
example : ∃ as s', env3.run demoProg (freshMem fld3) = .ok (as, s') ∧ cbrt2 ∈ s'.fld.emb := by
  obtain ⟨as, s', h⟩ := demoProg_runs
  exact ⟨as, s', h, (C01_enclosures_partial env3_inv fld3_good h).1⟩

/-- a program in the field of `√2`, whose polynomial has two real roots -/
def demoProgS : List Op :=
  [.gen 0, .setQ 1 (7 / 5), .sub 2 0 1, .sgn 2, .inv 3 2, .refine 100, .floor 3, .cmp 3 0, .mul 0 0 0, .equalQ 0 2]

/-- the program runs to its end -/
theorem demoProgS_runs : ∃ s', DemoSqrt.envS.run demoProgS (freshMem DemoSqrt.fldS) = .ok
    ([.unit, .unit, .unit, .int 1, .unit, .unit, .int 70, .int 1, .unit, .bool true], s') := by
  apply out_eq_some
  unfold DemoSqrt.envS
  generalize nfOps DemoSqrt.KS_ok = N
  revert N
  intro N
  kdecide

example : ∃ as s', DemoSqrt.envS.run demoProgS (freshMem DemoSqrt.fldS) = .ok (as, s') ∧ √2 ∈ s'.fld.emb ∧
    ∀ a, (s'.heap (.user a)).elem.val √2 ∈ (s'.heap (.user a)).emb := by
  obtain ⟨s', h⟩ := demoProgS_runs
  exact ⟨_, s', h, C01_enclosures_apart_partial DemoSqrt.KS_ok DemoSqrt.KS_root exactArb_interGrow (nd := false)
    (n := 64) rfl (f := DemoSqrt.fldS) rfl (by decide) rfl DemoSqrt.fldS_enc DemoSqrt.KS_apart h⟩

/-! ## C02: exact field arithmetic -/

/-- Any sequence of calls acts on the exact values as the calculator `Step` on real numbers does:
sums, differences, products, quotients, opposites, inverses, powers and mixed operations are exact,
with any aliasing, and all answers are right. -/
theorem C02_exact_arithmetic (hE : FieldInv E α I) {f : Field} (hf : I f) {ops : List Op}
    {as : List Ans} (h : E.run ops (freshMem f) = .ok (as, s')) :
    Steps K α (fun _ => 0) ops as (fun a => (s'.heap (.user a)).elem.val α) := by
  obtain ⟨v', hv, hs⟩ := run_spec hE ops _ _ _ _ (freshMem_rep hE hf) h
  have e : (fun a => (s'.heap (.user a)).elem.val α) = usr v' := by
    funext a; exact hv.val _
  rw [e]
  exact hs

/-- the run of `demoProgS` from the point of view of exact numbers: all answers are those of the calculator -/
example : ∃ w, Steps DemoSqrt.KS √2 (fun _ => 0) demoProgS
    [.unit, .unit, .unit, .int 1, .unit, .unit, .int 70, .int 1, .unit, .bool true] w := by
  obtain ⟨s', h⟩ := demoProgS_runs
  exact ⟨_, C02_exact_arithmetic DemoSqrt.envS_inv DemoSqrt.fldS_good h⟩

/-- One call from any state: the new values, spelled out for the arithmetic operations. -/
theorem C02_binary (hE : FieldInv E α I) (hs : Rep K α I v s) (a b c : ℕ) :
    (∃ s', E.exec (.add a b c) s = .ok (.unit, s') ∧
      Rep K α I (upd v (.user a) (v (.user b) + v (.user c))) s') ∧
    (∃ s', E.exec (.sub a b c) s = .ok (.unit, s') ∧
      Rep K α I (upd v (.user a) (v (.user b) - v (.user c))) s') ∧
    (∃ s', E.exec (.mul a b c) s = .ok (.unit, s') ∧
      Rep K α I (upd v (.user a) (v (.user b) * v (.user c))) s') ∧
    (v (.user c) ≠ 0 → ∃ s', E.exec (.div a b c) s = .ok (.unit, s') ∧
      Rep K α I (upd v (.user a) (v (.user b) / v (.user c))) s') ∧
    (v (.user c) = 0 → E.exec (.div a b c) s = .ub) := by
  have hz : v (.user c) = 0 ↔ (s.heap (.user c)).elem.isZero K = true := by
    rw [isZero_iff hE.ok hE.root (hs.wf _), hs.val]
  refine ⟨⟨_, rfl, add_spec hE _ _ _ _ _ _ hs rfl⟩, ⟨_, rfl, sub_spec hE _ _ _ _ _ _ hs rfl⟩,
    ⟨_, rfl, mul_spec hE _ _ _ _ _ _ hs rfl⟩, fun h => ?_, fun h => ?_⟩
  · have h1 : ∃ s', E.div (.user a) (.user b) (.user c) s = .ok ((), s') := by
      simp only [Env.div, bind, M.read, M.field]
      rw [if_neg (fun h' => h (hz.2 h'))]
      exact ⟨_, rfl⟩
    obtain ⟨s', h1⟩ := h1
    refine ⟨s', ?_, div_spec hE _ _ _ _ _ _ hs h1⟩
    simp only [Env.exec, bind, h1]
    rfl
  · simp only [Env.exec, Env.div, bind, M.read, M.field]
    rw [if_pos (hz.1 h)]
    rfl

theorem C02_unary (hE : FieldInv E α I) (hs : Rep K α I v s) (a b n : ℕ) :
    (∃ s', E.exec (.neg a b) s = .ok (.unit, s') ∧ Rep K α I (upd v (.user a) (-v (.user b))) s') ∧
    (∃ s', E.exec (.pow a b n) s = .ok (.unit, s') ∧
      Rep K α I (upd v (.user a) (v (.user b) ^ n)) s') ∧
    (v (.user b) ≠ 0 → ∃ s', E.exec (.inv a b) s = .ok (.unit, s') ∧
      Rep K α I (upd v (.user a) (v (.user b))⁻¹) s') ∧
    (v (.user b) = 0 → E.exec (.inv a b) s = .ub) := by
  have hz : v (.user b) = 0 ↔ (s.heap (.user b)).elem.isZero K = true := by
    rw [isZero_iff hE.ok hE.root (hs.wf _), hs.val]
  refine ⟨⟨_, rfl, neg_spec hE _ _ _ _ _ hs rfl⟩, ⟨_, rfl, pow_spec hE _ _ _ _ _ _ hs rfl⟩,
    fun h => ?_, fun h => ?_⟩
  · have h1 : ∃ s', E.inv (.user a) (.user b) s = .ok ((), s') := by
      simp only [Env.inv, bind, M.read, M.field]
      rw [if_neg (fun h' => h (hz.2 h'))]
      exact ⟨_, rfl⟩
    obtain ⟨s', h1⟩ := h1
    refine ⟨s', ?_, inv_spec hE _ _ _ _ _ hs h1⟩
    simp only [Env.exec, bind, h1]
    rfl
  · simp only [Env.exec, Env.inv, bind, M.read, M.field]
    rw [if_pos (hz.1 h)]
    rfl

theorem C02_mixed_integer (hE : FieldInv E α I) (hs : Rep K α I v s) (a b : ℕ) (c : ℤ) :
    (∃ s', E.exec (.addZ a b c) s = .ok (.unit, s') ∧
      Rep K α I (upd v (.user a) (v (.user b) + c)) s') ∧
    (∃ s', E.exec (.subZ a b c) s = .ok (.unit, s') ∧
      Rep K α I (upd v (.user a) (v (.user b) - c)) s') ∧
    (∃ s', E.exec (.mulZ a b c) s = .ok (.unit, s') ∧
      Rep K α I (upd v (.user a) (v (.user b) * c)) s') ∧
    (c ≠ 0 → ∃ s', E.exec (.divZ a b c) s = .ok (.unit, s') ∧
      Rep K α I (upd v (.user a) (v (.user b) / c)) s') ∧
    (c = 0 → E.exec (.divZ a b c) s = .ub) := by
  refine ⟨⟨_, rfl, addZ_spec hE _ _ _ _ _ _ hs rfl⟩, ⟨_, rfl, subZ_spec hE _ _ _ _ _ _ hs rfl⟩,
    ⟨_, rfl, mulZ_spec hE _ _ _ _ _ _ hs rfl⟩, fun h => ?_, fun h => ?_⟩
  · have h1 : ∃ s', E.divZ (.user a) (.user b) c s = .ok ((), s') := by
      simp only [Env.divZ, bind, M.read, M.field]
      rw [if_neg h]
      exact ⟨_, rfl⟩
    obtain ⟨s', h1⟩ := h1
    refine ⟨s', ?_, divZ_spec hE _ _ _ _ _ _ hs h1⟩
    simp only [Env.exec, bind, h1]
    rfl
  · simp only [Env.exec, Env.divZ, bind, M.read, M.field]
    rw [if_pos h]
    rfl

theorem C02_mixed_rational (hE : FieldInv E α I) (hs : Rep K α I v s) (a b : ℕ) (c : ℚ) :
    (∃ s', E.exec (.addQ a b c) s = .ok (.unit, s') ∧
      Rep K α I (upd v (.user a) (v (.user b) + c)) s') ∧
    (∃ s', E.exec (.subQ a b c) s = .ok (.unit, s') ∧
      Rep K α I (upd v (.user a) (v (.user b) - c)) s') ∧
    (∃ s', E.exec (.qSub a c b) s = .ok (.unit, s') ∧
      Rep K α I (upd v (.user a) (c - v (.user b))) s') ∧
    (∃ s', E.exec (.mulQ a b c) s = .ok (.unit, s') ∧
      Rep K α I (upd v (.user a) (v (.user b) * c)) s') ∧
    (c ≠ 0 → ∃ s', E.exec (.divQ a b c) s = .ok (.unit, s') ∧
      Rep K α I (upd v (.user a) (v (.user b) / c)) s') ∧
    (c = 0 → E.exec (.divQ a b c) s = .ub) := by
  refine ⟨⟨_, rfl, addQ_spec hE _ _ _ _ _ _ hs rfl⟩, ⟨_, rfl, subQ_spec hE _ _ _ _ _ _ hs rfl⟩,
    ⟨_, rfl, qSub_spec hE _ _ _ _ _ _ hs rfl⟩, ⟨_, rfl, mulQ_spec hE _ _ _ _ _ _ hs rfl⟩,
    fun h => ?_, fun h => ?_⟩
  · have h1 : ∃ s', E.divQ (.user a) (.user b) c s = .ok ((), s') := by
      simp only [Env.divQ, bind, M.read, M.field]
      rw [if_neg h]
      exact ⟨_, rfl⟩
    obtain ⟨s', h1⟩ := h1
    refine ⟨s', ?_, divQ_spec hE _ _ _ _ _ _ hs h1⟩
    simp only [Env.exec, bind, h1]
    rfl
  · simp only [Env.exec, Env.divQ, bind, M.read, M.field]
    rw [if_pos h]
    rfl

example : ∃ s', env3.exec (.mul 0 0 0) mem3 = .ok (.unit, s') ∧
    Rep K3 cbrt2 (GoodField K3 cbrt2) (upd val3 (.user 0) (cbrt2 * cbrt2)) s' :=
  (C02_binary env3_inv mem3_rep 0 0 0).2.2.1
/-- `(∛2 - 1)⁻¹`, in place -/
example : ∃ s', env3.exec (.inv 1 1) mem3 = .ok (.unit, s') ∧
    Rep K3 cbrt2 (GoodField K3 cbrt2) (upd val3 (.user 1) (cbrt2 - 1)⁻¹) s' := by
  refine (C02_unary env3_inv mem3_rep 1 1 0).2.2.1 (fun h => ?_)
  exact cbrt2_ne_rat 1 (by simpa [val3, sub_eq_zero] using h)
/-- `∛2 / (-3)` -/
example : ∃ s', env3.exec (.divZ 4 0 (-3)) mem3 = .ok (.unit, s') ∧
    Rep K3 cbrt2 (GoodField K3 cbrt2) (upd val3 (.user 4) (cbrt2 / ((-3 : ℤ) : ℝ))) s' :=
  (C02_mixed_integer env3_inv mem3_rep 4 0 (-3)).2.2.2.1 (by norm_num)
/-- `∛2 + 2/3` -/
example : ∃ s', env3.exec (.addQ 0 0 (2 / 3)) mem3 = .ok (.unit, s') ∧
    Rep K3 cbrt2 (GoodField K3 cbrt2) (upd val3 (.user 0) (cbrt2 + ((2 / 3 : ℚ) : ℝ))) s' :=
  (C02_mixed_rational env3_inv mem3_rep 0 0 (2 / 3)).1

/-! ## C03: rational divided by element -/

/-- `renf_elem_fmpq_div(a, 1, ∛2)` with distinct pointers stores `∛2`, not `1/∛2`. -/
theorem C03_counterexample : ∃ s', env3.exec (.qDiv 4 1 0) mem3 = .ok (.unit, s') ∧
    (mem3.heap (.user 0)).elem.val cbrt2 = cbrt2 ∧
    (s'.heap (.user 4)).elem.val cbrt2 ≠ 1 / cbrt2 := by
  have h : out (env3.exec (.qDiv 4 1 0)) mem3 = some .unit := by decide +kernel
  obtain ⟨s', h⟩ := out_eq_some h
  refine ⟨s', h, mem3_rep.val (.user 0), ?_⟩
  obtain ⟨v', hv, hst⟩ := exec_spec env3_inv _ _ _ _ _ mem3_rep h
  have h4 : v' (.user 4) = cbrt2 := by
    have h5 := hst.2.2
    have h6 : usr v' 4 = cbrt2 := by
      rw [h5]; simp [usr, val3]
    exact h6
  rw [hv.val, h4]
  intro h7
  have h0 := cbrt2_pos
  rw [eq_div_iff h0.ne'] at h7
  have h8 := cbrt2_pow
  have h9 : cbrt2 ^ 3 = cbrt2 * (cbrt2 * cbrt2) := by ring
  rw [h9, h7] at h8
  rw [mul_one] at h8
  rw [h8] at h7
  norm_num at h7

/-- Partial: right when the destination is the divisor. -/
theorem C03_rational_div_partial (hE : FieldInv E α I) (hs : Rep K α I v s) (a : ℕ) (b : ℚ)
    {ans : Ans} (h : E.exec (.qDiv a b a) s = .ok (ans, s')) :
    (s'.heap (.user a)).elem.val α = b / v (.user a) := by
  obtain ⟨v', hv, hst⟩ := exec_spec hE _ _ _ _ _ hs h
  have h5 : usr v' = _ := hst.2.2
  rw [hv.val]
  show usr v' a = _
  rw [h5]; simp [usr]

example : ∃ s', env3.exec (.qDiv 0 (2 / 7) 0) mem3 = .ok (.unit, s') ∧
    (s'.heap (.user 0)).elem.val cbrt2 = ((2 / 7 : ℚ) : ℝ) / cbrt2 := by
  obtain ⟨s', h⟩ : ∃ s', env3.exec (.qDiv 0 (2 / 7) 0) mem3 = .ok (.unit, s') :=
    out_eq_some (by decide +kernel)
  exact ⟨s', h, C03_rational_div_partial env3_inv mem3_rep 0 _ h⟩

/-! ## C04: the generator -/

/-- In degree at least two `renf_elem_gen` stores the root. -/
theorem C04_generator_partial (hE : FieldInv E α I) (hs : Rep K α I v s) (hd : 2 ≤ K.degree)
    (a : ℕ) : ∃ s', E.exec (.gen a) s = .ok (.unit, s') ∧
      Rep K α I (upd v (.user a) α) s' := by
  have hl : K.isLinear = false := by
    unfold Nf.degree at hd
    simp [Nf.isLinear]; omega
  have h1 : ∃ s', E.gen (.user a) s = .ok ((), s') := by
    simp only [Env.gen, bind, M.field, hl]
    exact ⟨_, rfl⟩
  obtain ⟨s', h1⟩ := h1
  refine ⟨s', ?_, gen_spec hE hl _ _ _ _ hs h1⟩
  simp only [Env.exec, bind, h1]
  rfl

example : ∃ s', env3.exec (.gen 1) mem3 = .ok (.unit, s') ∧
    Rep K3 cbrt2 (GoodField K3 cbrt2) (upd val3 (.user 1) cbrt2) s' :=
  C04_generator_partial env3_inv mem3_rep (by decide) 1

/-- the field of the polynomial `2x - 3` -/
def K1 : Nf := ⟨[-3, 2]⟩

theorem K1_root : K1.IsRoot (3 / 2) := by
  show (toPoly K1.pol).eval _ = 0
  simp [K1, toPoly]
  norm_num

theorem K1_ok : K1.Ok where
  two_le := by decide
  lead := by decide
  irr := by
    have : toPolyQ K1.pol = Polynomial.C 2 * Polynomial.X + Polynomial.C (-3) := by
      simp [K1, toPolyQ]; ring
    rw [this]
    exact Polynomial.irreducible_of_degree_eq_one (Polynomial.degree_linear (by norm_num))

/-- an environment for it -/
noncomputable def env1 : Env K1 := ⟨exactArb, nfOps K1_ok, refineEmbedding exactArb false 64, 64⟩

/-- `renf_elem_gen` in the field of `2x - 3` stores `2/3` although the root is `3/2`. -/
theorem C04_counterexample : ∃ s', env1.exec (.gen 0) (freshMem ⟨K1, .fin (3 / 2) 0, 64, false⟩) =
      .ok (.unit, s') ∧
    K1.Ok ∧ K1.IsRoot (3 / 2) ∧ (3 / 2 : ℝ) ∈ Ball.fin (3 / 2) 0 ∧
    (s'.heap (.user 0)).elem.val (3 / 2) = 2 / 3 := by
  have hE : FieldInv env1 (3 / 2) (GoodField K1 (3 / 2)) :=
    goodField_inv K1_ok K1_root (.inr fun β hβ => linear_unique K1_ok rfl K1_root hβ)
      (nd := false) (n := 64) rfl
  have hm : (3 / 2 : ℝ) ∈ Ball.fin (3 / 2) 0 := by
    rw [Ball.mem_fin]; push_cast; constructor <;> linarith
  have hf : GoodField K1 (3 / 2) ⟨K1, .fin (3 / 2) 0, 64, false⟩ :=
    ⟨rfl, by decide, hm,
      fun _ _ _ β hβ hne => absurd (linear_unique K1_ok rfl K1_root hβ) hne⟩
  have h : out (env1.exec (.gen 0)) (freshMem ⟨K1, .fin (3 / 2) 0, 64, false⟩) = some .unit := by
    decide +kernel
  obtain ⟨s', h⟩ := out_eq_some h
  refine ⟨s', h, K1_ok, K1_root, hm, ?_⟩
  obtain ⟨v', hv, hst⟩ := exec_spec hE _ _ _ _ _ (freshMem_rep hE hf) h
  have h5 : usr v' = _ := hst.2
  rw [hv.val]
  show usr v' 0 = _
  rw [h5]
  simp [genValue, K1, Nf.isLinear]

/-! ## C05: sign -/

/-- `renf_elem_sgn` returns the sign of the exact value, and changes no value. -/
theorem C05_sign (hE : FieldInv E α I) (hs : Rep K α I v s) {a : ℕ} {z : ℤ}
    (h : E.sgn (.user a) s = .ok (z, s')) :
    (z = 1 ∧ 0 < v (.user a) ∨ z = 0 ∧ v (.user a) = 0 ∨ z = -1 ∧ v (.user a) < 0) ∧
      Rep K α I v s' := by
  obtain ⟨h1, h2⟩ := sgn_spec hE _ _ _ _ hs h
  refine ⟨?_, h1⟩
  rw [h2]
  rcases lt_trichotomy (v (.user a)) 0 with h | h | h
  · exact .inr (.inr ⟨sgnR_neg h, h⟩)
  · exact .inr (.inl ⟨by rw [h, sgnR_zero], h⟩)
  · exact .inl ⟨sgnR_pos h, h⟩

/-- the enclosure of `∛2 - 1` contains zero at first, so this run refines -/
example : ∃ s', env3.sgn (.user 1) mem3 = .ok (1, s') := out_eq_some (by decide +kernel)
example : (mem3.heap (.user 1)).emb.containsZero = true := by decide +kernel
/-- what the run says about `∛2` -/
example : 0 < cbrt2 - 1 := by
  obtain ⟨s', h⟩ : ∃ s', env3.sgn (.user 1) mem3 = .ok (1, s') := out_eq_some (by decide +kernel)
  rcases (C05_sign env3_inv mem3_rep h).1 with h | h | h
  · exact h.2
  · exact absurd h.1 (by norm_num)
  · exact absurd h.1 (by norm_num)

/-! ## C06: comparison of two elements -/

/-- `renf_elem_cmp` has the sign of the difference. -/
theorem C06_compare (hE : FieldInv E α I) (hs : Rep K α I v s) {a b : ℕ} {z : ℤ}
    (h : E.cmp (.user a) (.user b) s = .ok (z, s')) :
    (z < 0 ↔ v (.user a) < v (.user b)) ∧ (z = 0 ↔ v (.user a) = v (.user b)) ∧
      (0 < z ↔ v (.user b) < v (.user a)) ∧ Rep K α I v s' := by
  obtain ⟨h1, rfl⟩ := cmp_spec hE (a := .user a) (b := .user b) (by simp) (by simp) _ _ _ hs h
  rcases lt_trichotomy (v (.user a)) (v (.user b)) with h | h | h
  · rw [sgnR_neg (by linarith : v (.user a) - v (.user b) < 0)]
    refine ⟨by simp [h], by simp [h.ne], by simp [h.le], h1⟩
  · rw [h, sub_self, sgnR_zero]
    refine ⟨by simp, by simp, by simp, h1⟩
  · rw [sgnR_pos (by linarith : 0 < v (.user a) - v (.user b))]
    refine ⟨by simp [h.le], by simp [h.ne'], by simp [h], h1⟩

/-- `renf_elem_equal` is true exactly on equal values; it always returns and changes nothing. -/
theorem C06_equal (hE : FieldInv E α I) (hs : Rep K α I v s) (a b : ℕ) :
    ∃ c, E.equal (.user a) (.user b) s = .ok (c, s) ∧
      (c = true ↔ v (.user a) = v (.user b)) :=
  ⟨_, rfl, by rw [equal_iff hE.ok hE.root (hs.wf _) (hs.wf _), hs.val, hs.val]⟩

/-- `∛2 < (1 + ∛4)/2`; the enclosure of the second element is the whole line at first -/
example : cbrt2 < (1 + cbrt2 ^ 2) / 2 := by
  obtain ⟨s', h⟩ : ∃ s', env3.cmp (.user 0) (.user 2) mem3 = .ok (-1, s') := out_eq_some (by decide +kernel)
  exact (C06_compare env3_inv mem3_rep h).1.1 (by norm_num)
example : ∃ c, env3.equal (.user 0) (.user 2) mem3 = .ok (c, mem3) ∧
    (c = true ↔ cbrt2 = (1 + cbrt2 ^ 2) / 2) := C06_equal env3_inv mem3_rep 0 2

/-! ## C07: comparison with rationals and integers -/

/-- `renf_elem_cmp_fmpq` (and `_fmpz`, `_si`, `_ui`), with assertions on or off. -/
theorem C07_compare_rational (hE : FieldInv E α I) (hs : Rep K α I v s) {a : ℕ} {q : ℚ} {nd : Bool}
    {z : ℤ} (h : E.cmpQ (.user a) q nd s = .ok (z, s')) :
    (z < 0 ↔ v (.user a) < q) ∧ (z = 0 ↔ v (.user a) = q) ∧ (0 < z ↔ q < v (.user a)) ∧
      Rep K α I v s' := by
  obtain ⟨h1, rfl⟩ := cmpQ_spec hE (a := .user a) (by simp) q nd _ _ _ hs h
  rcases lt_trichotomy (v (.user a)) q with h | h | h
  · rw [sgnR_neg (by linarith : v (.user a) - q < 0)]
    refine ⟨by simp [h], by simp [h.ne], by simp [h.le], h1⟩
  · rw [h, sub_self, sgnR_zero]
    refine ⟨by simp, by simp, by simp, h1⟩
  · rw [sgnR_pos (by linarith : 0 < v (.user a) - q)]
    refine ⟨by simp [h.le], by simp [h.ne'], by simp [h], h1⟩

theorem C07_equal_rational (hE : FieldInv E α I) (hs : Rep K α I v s) (a : ℕ) (q : ℚ) :
    ∃ c, E.equalQ (.user a) q s = .ok (c, s) ∧ (c = true ↔ v (.user a) = q) :=
  ⟨_, rfl, by rw [equalQ_iff hE.ok hE.root (hs.wf _), hs.val]⟩

/-- `∛2 > 1259921/1000000` needs a refined enclosure -/
example : ((1259921 / 1000000 : ℚ) : ℝ) < cbrt2 ∧ cbrt2 < ((1259922 / 1000000 : ℚ) : ℝ) := by
  obtain ⟨s', h⟩ : ∃ s', env3.cmpQ (.user 0) (1259921 / 1000000) false mem3 = .ok (1, s') :=
    out_eq_some (by decide +kernel)
  obtain ⟨s'', h'⟩ : ∃ s', env3.cmpQ (.user 0) (1259922 / 1000000) false mem3 = .ok (-1, s') :=
    out_eq_some (by decide +kernel)
  exact ⟨(C07_compare_rational env3_inv mem3_rep h).2.2.1.1 (by norm_num),
    (C07_compare_rational env3_inv mem3_rep h').1.1 (by norm_num)⟩
example : ∃ c, env3.equalQ (.user 3) (2 / 3) mem3 = .ok (c, mem3) ∧
    (c = true ↔ (2 / 3 : ℝ) = ((2 / 3 : ℚ) : ℝ)) := C07_equal_rational env3_inv mem3_rep 3 (2 / 3)

/-! ## C08: predicates -/

theorem C08_predicates (hE : FieldInv E α I) (hs : Rep K α I v s) (a : ℕ) :
    (∃ c, E.isZero (.user a) s = .ok (c, s) ∧ (c = true ↔ v (.user a) = 0)) ∧
    (∃ c, E.isOne (.user a) s = .ok (c, s) ∧ (c = true ↔ v (.user a) = 1)) ∧
    (∃ c, E.isInteger (.user a) s = .ok (c, s) ∧ (c = true ↔ ∃ z : ℤ, v (.user a) = z)) ∧
    (∃ c, E.isRational (.user a) s = .ok (c, s) ∧ (c = true ↔ ∃ q : ℚ, v (.user a) = q)) := by
  refine ⟨⟨_, rfl, ?_⟩, ⟨_, rfl, ?_⟩, ⟨_, rfl, ?_⟩, ⟨_, rfl, ?_⟩⟩
  · rw [isZero_iff hE.ok hE.root (hs.wf _), hs.val]
  · rw [isOne_iff hE.ok hE.root (hs.wf _), hs.val]
  · rw [isInteger_iff hE.ok hE.root (hs.wf _), hs.val]
  · rw [isRational_iff hE.ok hE.root (hs.wf _), hs.val]

example : env3.isRational (.user 3) mem3 = .ok (true, mem3) ∧
    env3.isInteger (.user 3) mem3 = .ok (false, mem3) ∧
    env3.isRational (.user 0) mem3 = .ok (false, mem3) := ⟨rfl, rfl, rfl⟩

/-! ## C09: floor and ceiling -/

/-- Partial: right for every element that is not zero, whatever was done before. -/
theorem C09_floor_ceil_partial (hE : FieldInv E α I) (hs : Rep K α I v s) {a : ℕ}
    (h0 : v (.user a) ≠ 0) {z : ℤ} :
    (E.floor (.user a) s = .ok (z, s') → z = ⌊v (.user a)⌋ ∧ Rep K α I v s') ∧
    (E.ceil (.user a) s = .ok (z, s') → z = ⌈v (.user a)⌉ ∧ Rep K α I v s') := by
  constructor <;> intro h
  · obtain ⟨h1, h2⟩ := round_rep hE .floor (.user a) _ _ _ hs h
    exact ⟨h2 (.inl h0), h1⟩
  · obtain ⟨h1, h2⟩ := round_rep hE .ceil (.user a) _ _ _ hs h
    exact ⟨h2 (.inl h0), h1⟩

/-- Partial: right for a zero element in fields of degree one and two, and in higher degree as long
as the storage holds no leftover of an earlier value. -/
theorem C09_floor_ceil_zero_partial (hE : FieldInv E α I) (hs : Rep K α I v s) {a : ℕ}
    (h0 : v (.user a) = 0) (hc : K.degree ≤ 2 ∨ (s.heap (.user a)).elem.stale = 0) {z : ℤ} :
    (E.floor (.user a) s = .ok (z, s') → z = 0) ∧ (E.ceil (.user a) s = .ok (z, s') → z = 0) := by
  have hcl : Clean s (.user a) := by
    intro hn
    rcases hc with hc | hc
    · exfalso
      have hw := hs.wf (.user a)
      have h2 := hE.ok.two_le
      unfold Nf.degree at hc
      have : K.pol.length = 2 ∨ K.pol.length = 3 := by omega
      rcases this with h | h
      · have := hw.linear (by simp [Nf.isLinear, h])
        rw [hn] at this; simp at this
      · have := hw.quadratic (by simp [Nf.isQuadratic, h])
        rw [hn] at this; simp at this
    · exact hc
  constructor <;> intro h
  · obtain ⟨-, h2⟩ := round_spec hE .floor (.user a) _ _ _ ⟨hs, .inr hcl⟩ h
    rw [h2, h0]; simp [Env.Kind.real]
  · obtain ⟨-, h2⟩ := round_spec hE .ceil (.user a) _ _ _ ⟨hs, .inr hcl⟩ h
    rw [h2, h0]; simp [Env.Kind.real]

example : ⌊(1 + cbrt2 ^ 2) / 2⌋ = 1 ∧ ⌈(1 + cbrt2 ^ 2) / 2⌉ = 2 := by
  obtain ⟨s', h⟩ : ∃ s', env3.floor (.user 2) mem3 = .ok (1, s') := out_eq_some (by decide +kernel)
  obtain ⟨s'', h'⟩ : ∃ s', env3.ceil (.user 2) mem3 = .ok (2, s') := out_eq_some (by decide +kernel)
  have h0 : val3 (.user 2) ≠ 0 := by
    show (1 + cbrt2 ^ 2) / 2 ≠ 0
    positivity
  exact ⟨((C09_floor_ceil_partial env3_inv mem3_rep h0).1 h).1.symm,
    ((C09_floor_ceil_partial env3_inv mem3_rep h0).2 h').1.symm⟩
/-- a zero with clean storage -/
example : ∃ z s', env3.floor (.user 7) mem3 = .ok (z, s') ∧ z = 0 := by
  obtain ⟨s', h⟩ : ∃ s', env3.floor (.user 7) mem3 = .ok (0, s') := out_eq_some (by decide +kernel)
  exact ⟨_, s', h, (C09_floor_ceil_zero_partial env3_inv mem3_rep (a := 7) rfl (.inr rfl)).1 h⟩

/-- In a field of degree 3: store 5 in an element, set it to zero, take the floor: the answer
is 5. -/
theorem C09_counterexample :
    ∃ s', env3.run [.setZ 0 5, .zero 0, .isZero 0, .floor 0, .ceil 0] (freshMem fld3) =
      .ok ([.unit, .unit, .bool true, .int 5, .int 5], s') :=
  out_eq_some (by decide +kernel)

/-! ## C10: floor division -/

theorem C10_floor_division (hE : FieldInv E α I) (hs : Rep K α I v s) {b c : ℕ} {z : ℤ}
    (h : E.fdiv (.user b) (.user c) s = .ok (z, s')) :
    v (.user c) ≠ 0 ∧ z = ⌊v (.user b) / v (.user c)⌋ ∧ Rep K α I v s' := by
  obtain ⟨h1, h2⟩ := fdiv_spec hE (b := .user b) (c := .user c) (by simp) (by simp) _ _ _ hs h
  exact ⟨fdiv_ne hE _ _ _ hs h, h2, h1⟩

/-- `⌊∛2/(∛2 - 1)⌋ = 4` -/
example : ⌊cbrt2 / (cbrt2 - 1)⌋ = 4 := by
  obtain ⟨s', h⟩ : ∃ s', env3.fdiv (.user 0) (.user 1) mem3 = .ok (4, s') := out_eq_some (by decide +kernel)
  exact (C10_floor_division env3_inv mem3_rep h).2.1.symm
/-- an exact quotient: `⌊∛2/∛2⌋ = 1` -/
example : ∃ s', env3.fdiv (.user 0) (.user 0) mem3 = .ok (1, s') := out_eq_some (by decide +kernel)
/-- a rational divisor -/
example : ∃ s', env3.fdiv (.user 0) (.user 3) mem3 = .ok (1, s') := out_eq_some (by decide +kernel)

/-! ## C11: ball conversion -/

/-- The ball contains the value, and its radius is at most `2^-prec` times its midpoint. -/
theorem C11_get_arb (hE : FieldInv E α I) (hs : Rep K α I v s) {a : ℕ} {prec : ℤ} {b : Ball}
    (h : E.getArb (.user a) prec s = .ok (b, s')) :
    v (.user a) ∈ b ∧ (∃ m r : ℚ, b = .fin m r ∧ r * 2 ^ prec ≤ |m|) ∧ Rep K α I v s' := by
  obtain ⟨h1, h2⟩ := getArb_spec hE _ _ _ _ _ hs h
  exact ⟨h2, getArb_accuracy hE _ _ _ _ _ hs h, h1⟩

example : ∃ b s', env3.getArb (.user 2) 100 mem3 = .ok (b, s') ∧ (1 + cbrt2 ^ 2) / 2 ∈ b ∧
    ∃ m r : ℚ, b = .fin m r ∧ r * 2 ^ (100 : ℤ) ≤ |m| := by
  have h : (out (env3.getArb (.user 2) 100) mem3).isSome = true := by decide +kernel
  obtain ⟨b, hb⟩ := Option.isSome_iff_exists.1 h
  obtain ⟨s', h⟩ := out_eq_some hb
  have := C11_get_arb env3_inv mem3_rep h
  exact ⟨b, s', h, this.1, this.2.1⟩

/-! ## C12: conversion to double -/

/-- Partial: correctly rounded in every direction for all elements in the normal range of doubles,
rational or not, whatever was done before. -/
theorem C12_get_d_partial (hE : FieldInv E α I) (hs : Rep K α I v s) {a : ℕ} {rnd : Rnd} {d : Dbl}
    {nd : Bool}
    (h : E.getD (.user a) rnd nd s = .ok (d, s')) (h1 : (2 : ℝ) ^ (-1022 : ℤ) ≤ |v (.user a)|)
    (h2 : |v (.user a)| ≤ dblMax) : RoundsTo rnd (v (.user a)) d ∧ Rep K α I v s' := by
  obtain ⟨h3, h4⟩ := getD_rounds hE (a := .user a) (by simp) rnd _ _ _ hs h
  exact ⟨h4 h1 h2, h3⟩

/-- Partial: for irrational elements the lower bound is not needed. -/
theorem C12_get_d_irrational_partial (hE : FieldInv E α I) (hs : Rep K α I v s) {a : ℕ} {rnd : Rnd} {nd : Bool}
    {d : Dbl} (h : E.getD (.user a) rnd nd s = .ok (d, s')) (hi : Irrational (v (.user a)))
    (h2 : |v (.user a)| ≤ dblMax) : RoundsTo rnd (v (.user a)) d :=
  (getD_spec hE (a := .user a) (by simp) rnd _ _ _ hs h).2.2.1 hi h2

/-- Partial: for rational elements, in all directions but `near`, neither bound is needed. -/
theorem C12_get_d_directed_partial (hE : FieldInv E α I) (hs : Rep K α I v s) {a : ℕ} {rnd : Rnd} {nd : Bool}
    {d : Dbl} (h : E.getD (.user a) rnd nd s = .ok (d, s')) {q : ℚ} (hq : v (.user a) = q)
    (h0 : q ≠ 0) (hn : rnd ≠ .near) : RoundsTo rnd q d := by
  rw [(getD_spec hE (a := .user a) (by simp) rnd _ _ _ hs h).2.1 q hq]
  exact twice_directed hn h0

theorem cbrt2_normal : (2 : ℝ) ^ (-1022 : ℤ) ≤ |cbrt2| ∧ |cbrt2| ≤ (dblMax : ℝ) := by
  have h := cbrt2_bounds
  rw [abs_of_pos cbrt2_pos]
  refine ⟨le_trans ?_ h.1, h.2.trans ?_⟩
  · exact zpow_le_one_of_nonpos₀ (by norm_num) (by norm_num)
  · have : (3 / 2 : ℚ) ≤ dblMax := by decide +kernel
    have := (Rat.cast_le (K := ℝ)).2 this
    push_cast at this
    exact this

/-- the double nearest to `∛2` -/
example : RoundsTo .near cbrt2 (.fin (5674179970822795 / 4503599627370496)) := by
  obtain ⟨s', h⟩ : ∃ s', env3.getD (.user 0) .near false mem3 =
    .ok (.fin (5674179970822795 / 4503599627370496), s') := out_eq_some (by decide +kernel)
  exact (C12_get_d_partial env3_inv mem3_rep h cbrt2_normal.1 cbrt2_normal.2).1
/-- the same by the theorem for irrational numbers -/
example : ∃ d s', env3.getD (.user 0) .near false mem3 = .ok (d, s') ∧ RoundsTo .near cbrt2 d := by
  obtain ⟨s', h⟩ : ∃ s', env3.getD (.user 0) .near false mem3 =
    .ok (.fin (5674179970822795 / 4503599627370496), s') := out_eq_some (by decide +kernel)
  refine ⟨_, s', h, C12_get_d_irrational_partial env3_inv mem3_rep h ?_ cbrt2_normal.2⟩
  rintro ⟨q, hq⟩
  exact cbrt2_ne_rat q hq.symm
/-- the double above `2/3` -/
example : ∃ d s', env3.getD (.user 3) .ceil false mem3 = .ok (d, s') ∧ RoundsTo .ceil ((2 / 3 : ℚ) : ℝ) d := by
  have h : (out (env3.getD (.user 3) .ceil false) mem3).isSome = true := by decide +kernel
  obtain ⟨d, hd⟩ := Option.isSome_iff_exists.1 h
  obtain ⟨s', h⟩ := out_eq_some hd
  exact ⟨d, s', h, C12_get_d_directed_partial env3_inv mem3_rep h (q := 2 / 3)
    (by show (2 / 3 : ℝ) = _; norm_num) (by norm_num) (by decide)⟩

/-- The rational number `(1/2 + 2^-60)·2^-1074` in direction `near` gives 0, but the nearest double
is `2^-1074`. -/
theorem C12_counterexample_subnormal :
    ∃ (x : ℚ) (s' : Mem), env3.run [.setQ 0 x, .getD 0 .near] (freshMem fld3) =
      .ok ([.unit, .dbl (.fin 0)], s') ∧ ¬ RoundsTo .near x (.fin 0) := by
  have h : out (env3.run [.setQ 0 ((1 / 2 + 1 / 2 ^ 60) * (1 / 2 ^ 1074)), .getD 0 .near])
      (freshMem fld3) = some [.unit, .dbl (.fin 0)] := by decide +kernel
  obtain ⟨s', h⟩ := out_eq_some h
  refine ⟨_, s', h, ?_⟩
  rintro ⟨-, -, h1, -⟩
  have hd : IsDouble (1 / 2 ^ 1074 : ℚ) := by
    refine ⟨1, -1074, ?_, by norm_num, le_rfl, by norm_num⟩
    rw [zpow_neg]; norm_cast
  have h2 := h1 _ hd
  set t : ℝ := 1 / 2 ^ 1074 with ht
  have ht0 : 0 < t := by positivity
  have e1 : (((1 / 2 + 1 / 2 ^ 60) * (1 / 2 ^ 1074) : ℚ) : ℝ) = (1 / 2 + 1 / 2 ^ 60) * t := by
    rw [ht]; push_cast; rfl
  have e2 : ((1 / 2 ^ 1074 : ℚ) : ℝ) = t := by rw [ht]; push_cast; rfl
  rw [e1, e2, Rat.cast_zero, sub_zero, abs_of_pos (by positivity)] at h2
  have h3 : |(1 / 2 + 1 / 2 ^ 60) * t - t| = (1 / 2 - 1 / 2 ^ 60) * t := by
    rw [abs_of_nonpos (by nlinarith)]; ring
  rw [h3] at h2
  nlinarith

/-- `2^1024·∛2` in direction `floor` gives infinity, which is above it. -/
theorem C12_counterexample_overflow :
    ∃ s', env3.run [.gen 0, .mulZ 0 0 (2 ^ 1024), .getD 0 .floor] (freshMem fld3) =
      .ok ([.unit, .unit, .dbl .inf], s') ∧ ∀ x : ℝ, ¬ RoundsTo .floor x .inf := by
  obtain ⟨s', h⟩ := out_eq_some (m := env3.run [.gen 0, .mulZ 0 0 (2 ^ 1024), .getD 0 .floor])
    (s := freshMem fld3) (a := [.unit, .unit, .dbl .inf]) (by decide +kernel)
  exact ⟨s', h, fun x hx => hx⟩

/-! ## C13: continued fraction -/

/-- The terms written are the first `n` partial quotients of the value (fewer only if the continued
fraction is finite), `rem` is the complete quotient that remains, and together they determine the
value.  Partial: for nonzero elements (zero yields no term at all instead of the term 0). -/
theorem C13_cfrac_partial (hE : FieldInv E α I) (hs : Rep K α I v s) {rem a n : ℕ} {l : List ℤ}
    (h0 : v (.user a) ≠ 0) (h : E.getCfrac (.user rem) (.user a) n s = .ok (l, s')) :
    l = cfTerms (v (.user a)) n ∧ (s'.heap (.user rem)).elem.val α = cfRem (v (.user a)) n ∧
      cfValue l ((s'.heap (.user rem)).elem.val α) = v (.user a) := by
  obtain ⟨h1, h2⟩ := getCfrac_spec hE _ _ _ _ _ _ hs h
  rw [if_neg h0] at h1 h2
  have h3 : (s'.heap (.user rem)).elem.val α = cfRem (v (.user a)) n := by
    rw [h1.val, upd_same]
  refine ⟨h2, h3, ?_⟩
  rw [h3, h2, cfValue_terms]

theorem cfTerms_length_le (x : ℝ) (n : ℕ) : (cfTerms x n).length ≤ n := by
  induction n generalizing x with
  | zero => simp [cfTerms]
  | succ n ih =>
    unfold cfTerms
    split_ifs
    · simp
    · simpa using ih _

theorem cfTerms_short {x : ℝ} {n : ℕ} (h : (cfTerms x n).length < n) : ∃ q : ℚ, x = q := by
  induction n generalizing x with
  | zero => simp at h
  | succ n ih =>
    unfold cfTerms at h
    split_ifs at h with h0
    · refine ⟨⌊x⌋, ?_⟩
      have := Int.floor_add_fract x
      rw [h0, add_zero] at this
      rw [← this]; push_cast; simp
    · obtain ⟨q, hq⟩ := ih (x := (Int.fract x)⁻¹) (by simpa using h)
      refine ⟨⌊x⌋ + 1 / q, ?_⟩
      have := Int.floor_add_fract x
      push_cast
      rw [← hq]
      simp

/-- At most `n` terms are written, and fewer only if the element is rational. -/
theorem C13_cfrac_count (hE : FieldInv E α I) (hs : Rep K α I v s) {rem a n : ℕ} {l : List ℤ}
    (h : E.getCfrac (.user rem) (.user a) n s = .ok (l, s')) :
    l.length ≤ n ∧ (l.length < n → ∃ q : ℚ, v (.user a) = q) := by
  obtain ⟨-, h2⟩ := getCfrac_spec hE _ _ _ _ _ _ hs h
  split_ifs at h2 with h0
  · rw [h2]; exact ⟨by simp, fun _ => ⟨0, by simp [h0]⟩⟩
  · rw [h2]; exact ⟨cfTerms_length_le _ _, cfTerms_short⟩

/-- Every term after the first is positive, as continued fractions require. -/
theorem C13_cfrac_positive (hE : FieldInv E α I) (hs : Rep K α I v s) {rem a n : ℕ} {z : ℤ}
    {l : List ℤ} (h : E.getCfrac (.user rem) (.user a) n s = .ok (z :: l, s')) :
    ∀ t ∈ l, 1 ≤ t := by
  obtain ⟨-, h2⟩ := getCfrac_spec hE _ _ _ _ _ _ hs h
  split_ifs at h2 with h0
  cases n with
  | zero => simp [cfTerms] at h2
  | succ n =>
    unfold cfTerms at h2
    injection h2 with _ h2
    split_ifs at h2 with h3
    · rw [h2]; simp
    · rw [h2]; exact cfTerms_pos (fract_inv_gt h3) n

/-- C13 is FALSE of the code for zero: whatever number of terms is asked for, no term is written,
although the continued fraction of 0 is the single term 0. -/
theorem C13_zero_counterexample (hE : FieldInv E α I) (hs : Rep K α I v s) {rem a n : ℕ} {l : List ℤ}
    (h0 : v (.user a) = 0) (h : E.getCfrac (.user rem) (.user a) (n + 1) s = .ok (l, s')) :
    l = [] ∧ cfTerms (v (.user a)) (n + 1) = [0] ∧ (s'.heap (.user rem)).elem.val α = 0 := by
  obtain ⟨h1, h2⟩ := getCfrac_spec hE _ _ _ _ _ _ hs h
  rw [if_pos h0] at h1 h2
  refine ⟨h2, by simp [cfTerms, h0], ?_⟩
  rw [h1.val, upd_same]

/-- zero is reached, and asked for ten terms it gives none -/
example : ∃ s', env3.run [.zero 0, .getCfrac 1 0 10] (freshMem fld3) = .ok ([.unit, .terms []], s') :=
  out_eq_some (by decide +kernel)

theorem cfrac_run : ∃ s', env3.getCfrac (.user 4) (.user 0) 10 mem3 =
    .ok ([1, 3, 1, 5, 1, 1, 4, 1, 1, 8], s') := out_eq_some (by decide +kernel)
theorem cfrac_run_rational : ∃ s', env3.getCfrac (.user 3) (.user 3) 10 mem3 = .ok ([0, 1, 2], s') :=
  out_eq_some (by decide +kernel)
/-- ten partial quotients of `∛2` -/
example : cfTerms cbrt2 10 = [1, 3, 1, 5, 1, 1, 4, 1, 1, 8] := by
  obtain ⟨s', h⟩ := cfrac_run
  exact (C13_cfrac_partial env3_inv mem3_rep (a := 0) cbrt2_pos.ne' h).1.symm
/-- three instead of ten terms: the number is rational -/
example : ∃ q : ℚ, val3 (.user 3) = q := by
  obtain ⟨s', h⟩ := cfrac_run_rational
  exact (C13_cfrac_count env3_inv mem3_rep h).2 (by decide)
example : ∀ t ∈ [(3 : ℤ), 1, 5, 1, 1, 4, 1, 1, 8], 1 ≤ t := by
  obtain ⟨s', h⟩ := cfrac_run
  exact C13_cfrac_positive env3_inv mem3_rep h

/-! ## C43: queries do not change values -/

theorem step_query {op : Op} (hq : op.isQuery = true) {w w' : ℕ → ℝ} {ans : Ans}
    (h : Step K α w op ans w') : w' = w := by
  cases op <;> first | (simp [Op.isQuery] at hq; done) | exact h.1 | exact h.2

/-- The canonical representation of the exact value of every element (numerators and denominator)
is the same before and after any sequence of queries. -/
theorem C43_queries_preserve_values (hE : FieldInv E α I) (hs : Rep K α I v s) {ops : List Op}
    (hq : ∀ op ∈ ops, op.isQuery = true) {as : List Ans} (h : E.run ops s = .ok (as, s')) (a : ℕ) :
    (s'.heap (.user a)).elem.val α = (s.heap (.user a)).elem.val α ∧
    (s'.heap (.user a)).elem.num = (s.heap (.user a)).elem.num ∧
    (s'.heap (.user a)).elem.den = (s.heap (.user a)).elem.den := by
  obtain ⟨v', hv, hst⟩ := run_spec hE ops _ _ _ _ hs h
  have key : ∀ (ops : List Op) (as : List Ans) (w w' : ℕ → ℝ),
      (∀ op ∈ ops, op.isQuery = true) → Steps K α w ops as w' → w' = w := by
    intro ops
    induction ops with
    | nil => intro as w w' _ h; cases as with
      | nil => exact h
      | cons => exact h.elim
    | cons op ops ih =>
      intro as w w' hq h
      cases as with
      | nil => exact h.elim
      | cons a as =>
        obtain ⟨u, h1, h2⟩ := h
        rw [ih as u w' (fun op ho => hq op (List.mem_cons_of_mem _ ho)) h2]
        exact step_query (hq op List.mem_cons_self) h1
  have e := key ops as _ _ hq hst
  have hval : (s'.heap (.user a)).elem.val α = (s.heap (.user a)).elem.val α := by
    rw [hv.val, hs.val]
    exact congrFun e a
  obtain ⟨h1, h2⟩ := (NfElem.val_inj hE.ok hE.root (hv.wf _) (hs.wf _)).1 hval
  exact ⟨hval, h1, h2⟩

/-- The answers of sign and comparison do not depend on which queries were made before: after any
queries, in any state of the enclosures, the answer is the same. -/
theorem C43_answers_independent (hE : FieldInv E α I) (hs : Rep K α I v s) {ops : List Op}
    (hq : ∀ op ∈ ops, op.isQuery = true) {as : List Ans} (h : E.run ops s = .ok (as, s'))
    {a b : ℕ} {q : ℚ} {z z' : ℤ} {t t' : Mem} :
    (E.sgn (.user a) s = .ok (z, t) → E.sgn (.user a) s' = .ok (z', t') → z = z') ∧
    (E.cmp (.user a) (.user b) s = .ok (z, t) → E.cmp (.user a) (.user b) s' = .ok (z', t') →
      z = z') ∧
    (E.cmpQ (.user a) q false s = .ok (z, t) → E.cmpQ (.user a) q false s' = .ok (z', t') →
      z = z') ∧
    (v (.user a) ≠ 0 → E.floor (.user a) s = .ok (z, t) → E.floor (.user a) s' = .ok (z', t') →
      z = z') ∧
    (E.fdiv (.user a) (.user b) s = .ok (z, t) → E.fdiv (.user a) (.user b) s' = .ok (z', t') →
      z = z') := by
  obtain ⟨v', hv, -⟩ := run_spec hE ops _ _ _ _ hs h
  have e : ∀ a, v' (.user a) = v (.user a) := by
    intro a
    have := (C43_queries_preserve_values hE hs hq h a).1
    rwa [hv.val, hs.val] at this
  refine ⟨fun h1 h2 => ?_, fun h1 h2 => ?_, fun h1 h2 => ?_, fun h0 h1 h2 => ?_, fun h1 h2 => ?_⟩
  · rw [(sgn_spec hE _ _ _ _ hs h1).2, (sgn_spec hE _ _ _ _ hv h2).2, e]
  · rw [(cmp_spec hE (by simp) (by simp) _ _ _ hs h1).2,
      (cmp_spec hE (by simp) (by simp) _ _ _ hv h2).2, e, e]
  · rw [(cmpQ_spec hE (by simp) _ _ _ _ _ hs h1).2, (cmpQ_spec hE (by simp) _ _ _ _ _ hv h2).2, e]
  · rw [(round_rep hE .floor _ _ _ _ hs h1).2 (.inl h0),
      (round_rep hE .floor _ _ _ _ hv h2).2 (.inl (by rw [e]; exact h0)), e]
  · rw [(fdiv_spec hE (by simp) (by simp) _ _ _ hs h1).2,
      (fdiv_spec hE (by simp) (by simp) _ _ _ hv h2).2, e, e]

example : ∃ as s', env3.run [.sgn 1, .refine 100, .cmp 0 2, .floor 2, .sgn 1] mem3 = .ok (as, s') ∧
    (∀ a, (s'.heap (.user a)).elem.num = (mem3.heap (.user a)).elem.num) ∧
    (∀ z t z' t', env3.sgn (.user 1) mem3 = .ok (z, t) → env3.sgn (.user 1) s' = .ok (z', t') → z = z') := by
  obtain ⟨s', h⟩ := out_eq_some (m := env3.run [.sgn 1, .refine 100, .cmp 0 2, .floor 2, .sgn 1]) (s := mem3)
    (a := [.int 1, .unit, .int (-1), .int 1, .int 1]) (by decide +kernel)
  have hq : ∀ op ∈ ([.sgn 1, .refine 100, .cmp 0 2, .floor 2, .sgn 1] : List Op), op.isQuery = true := by decide
  exact ⟨_, s', h, fun a => (C43_queries_preserve_values env3_inv mem3_rep hq h a).2.1,
    fun z t z' t' h1 h2 => (C43_answers_independent env3_inv mem3_rep hq h (b := 0) (q := 0)).1 h1 h2⟩

end EAntic
