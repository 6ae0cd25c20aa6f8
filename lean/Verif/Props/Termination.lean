import Verif.Lemmas.ConvergeRound

/-!
# Property C44: the queries terminate

`Convergent`, `Refines`, `EvalOk`: see `Spec/Converge.lean`.  The bounds `P` on the precision
requested from the field and `n` on the number of iterations are chosen before the refinement
function `R`; they depend on the stored numbers only.
-/

namespace EAntic

open M

variable {K : Nf} {α : ℝ} {I : Field → Prop} {v : Reg → ℝ} {s : Mem}

/-- C44 for `renf_elem_sgn`: it returns the sign.  The full statement has no hypothesis `EvalOk`; it
is false, see `C44_precision_counterexample`. -/
theorem C44_sgn_partial (hK : K.Ok) (hα : K.IsRoot α) {A : ArbOps} (hA : A.Convergent)
    {N : NfOps K} (h : Rep K α I v s) (hf : 2 ≤ s.fld.prec) {a : Reg}
    (hp : EvalOk K s.fld (s.heap a).elem) :
    ∃ (P : ℤ) (n : ℕ), ∀ (R : Field → ℤ → Res Field) (fuel : ℕ),
      FieldInv (⟨A, N, R, fuel⟩ : Env K) α I → Refines R α I P → n ≤ fuel →
      ∃ s', (⟨A, N, R, fuel⟩ : Env K).sgn a s = .ok (sgnR (v a), s') ∧ Rep K α I v s' := by
  obtain ⟨P, n, H⟩ := sgn_total (I := I) hK hα hA (h.wf a) hf hp
  refine ⟨P, n, fun R fuel hE hR hn => ?_⟩
  obtain ⟨z, s', e, -⟩ := H ⟨A, N, R, fuel⟩ a v rfl hE hR hn s ⟨⟨h, rfl⟩, rfl⟩
  obtain ⟨h1, h2⟩ := sgn_spec hE a s z s' h e
  exact ⟨s', h2 ▸ e, h1⟩

/-- C44 for `renf_elem_cmp`. -/
theorem C44_cmp_partial (hK : K.Ok) (hα : K.IsRoot α) {A : ArbOps} (hA : A.Convergent)
    {N : NfOps K} (h : Rep K α I v s) (hf : 2 ≤ s.fld.prec) {a b : ℕ}
    (hp : EvalOk K s.fld (s.heap (.user a)).elem) (hp' : EvalOk K s.fld (s.heap (.user b)).elem)
    (hd : ∀ d, d.Wf K → d.val α = v (.user a) - v (.user b) → EvalOk K s.fld d) :
    ∃ (P : ℤ) (n : ℕ), ∀ (R : Field → ℤ → Res Field) (fuel : ℕ),
      FieldInv (⟨A, N, R, fuel⟩ : Env K) α I → Refines R α I P → n ≤ fuel →
      ∃ s', (⟨A, N, R, fuel⟩ : Env K).cmp (.user a) (.user b) s =
        .ok (sgnR (v (.user a) - v (.user b)), s') ∧ Rep K α I v s' := by
  rw [← h.val, ← h.val] at hd
  obtain ⟨P, n, H⟩ := cmp_total (I := I) (N := N) hK hα hA (h.wf _) (h.wf _) hf hp hp' hd
  refine ⟨P, n, fun R fuel hE hR hn => ?_⟩
  obtain ⟨z, s', e, -⟩ := H ⟨A, N, R, fuel⟩ (.user a) (.user b) v (by simp) (by simp) rfl rfl hE hR
    hn s ⟨h, rfl, rfl, rfl⟩
  obtain ⟨h1, h2⟩ := cmp_spec hE (by simp) (by simp) s z s' h e
  exact ⟨s', h2 ▸ e, h1⟩

/-- C44 for `renf_elem_cmp_fmpq` (and `cmp_fmpz`, `cmp_si`, `cmp_ui`). -/
theorem C44_cmp_fmpq_partial (hK : K.Ok) (hα : K.IsRoot α) {A : ArbOps} (hA : A.Convergent)
    {N : NfOps K} (h : Rep K α I v s) (hf : 2 ≤ s.fld.prec) {a : ℕ} {c : ℚ}
    (hp : EvalOk K s.fld (s.heap (.user a)).elem)
    (hd : ∀ d, d.Wf K → d.val α = v (.user a) - c → EvalOk K s.fld d) :
    ∃ (P : ℤ) (n : ℕ), ∀ (R : Field → ℤ → Res Field) (fuel : ℕ) (ndebug : Bool),
      FieldInv (⟨A, N, R, fuel⟩ : Env K) α I → Refines R α I P → n ≤ fuel →
      ∃ s', (⟨A, N, R, fuel⟩ : Env K).cmpQ (.user a) c ndebug s =
        .ok (sgnR (v (.user a) - c), s') ∧ Rep K α I v s' := by
  rw [← h.val] at hd
  obtain ⟨P, n, H⟩ := cmpQ_total (I := I) (N := N) hK hα hA (h.wf _) hf hp hd
  refine ⟨P, n, fun R fuel nd hE hR hn => ?_⟩
  obtain ⟨z, s', e, -⟩ := H ⟨A, N, R, fuel⟩ (.user a) v nd (by simp) rfl rfl hE hR
    hn s ⟨h, rfl, rfl, rfl⟩
  obtain ⟨h1, h2⟩ := cmpQ_spec hE (by simp) c nd s z s' h e
  exact ⟨s', h2 ▸ e, h1⟩

/-- C44 for `renf_elem_floor`.  `StartOk` excludes the `abort` for numbers whose exponent does not
fit into a machine word.  As in `C10`, zero must not be stored in a register with stale data. -/
theorem C44_floor_partial (hK : K.Ok) (hα : K.IsRoot α) {A : ArbOps} (hA : A.Convergent)
    {N : NfOps K} (h : Rep K α I v s) (hf : 2 ≤ s.fld.prec) {a : Reg}
    (hz : v a ≠ 0 ∨ Clean s a) (hp : EvalOk K s.fld (s.heap a).elem) :
    ∃ (P : ℤ) (n : ℕ), ∀ (R : Field → ℤ → Res Field) (fuel : ℕ),
      FieldInv (⟨A, N, R, fuel⟩ : Env K) α I → Refines R α I P → n ≤ fuel →
      StartOk (⟨A, N, R, fuel⟩ : Env K) s a →
      ∃ s', (⟨A, N, R, fuel⟩ : Env K).floor a s = .ok (⌊v a⌋, s') ∧ Rep K α I v s' := by
  obtain ⟨P, n, H⟩ := round_total (I := I) hK hα hA (h.wf a) hf hp .floor
  refine ⟨P, n, fun R fuel hE hR hn hst => ?_⟩
  obtain ⟨z, s', e, -⟩ := H ⟨A, N, R, fuel⟩ a v rfl hE hR hn s ⟨⟨⟨h, rfl⟩, rfl⟩, hst⟩
  obtain ⟨h1, h2⟩ := round_spec hE .floor a s z s' ⟨h, hz⟩ e
  have h3 : z = ⌊v a⌋ := h2
  exact ⟨s', h3 ▸ e, h1⟩

/-- C44 for `renf_elem_ceil`. -/
theorem C44_ceil_partial (hK : K.Ok) (hα : K.IsRoot α) {A : ArbOps} (hA : A.Convergent)
    {N : NfOps K} (h : Rep K α I v s) (hf : 2 ≤ s.fld.prec) {a : Reg}
    (hz : v a ≠ 0 ∨ Clean s a) (hp : EvalOk K s.fld (s.heap a).elem) :
    ∃ (P : ℤ) (n : ℕ), ∀ (R : Field → ℤ → Res Field) (fuel : ℕ),
      FieldInv (⟨A, N, R, fuel⟩ : Env K) α I → Refines R α I P → n ≤ fuel →
      StartOk (⟨A, N, R, fuel⟩ : Env K) s a →
      ∃ s', (⟨A, N, R, fuel⟩ : Env K).ceil a s = .ok (⌈v a⌉, s') ∧ Rep K α I v s' := by
  obtain ⟨P, n, H⟩ := round_total (I := I) hK hα hA (h.wf a) hf hp .ceil
  refine ⟨P, n, fun R fuel hE hR hn hst => ?_⟩
  obtain ⟨z, s', e, -⟩ := H ⟨A, N, R, fuel⟩ a v rfl hE hR hn s ⟨⟨⟨h, rfl⟩, rfl⟩, hst⟩
  obtain ⟨h1, h2⟩ := round_spec hE .ceil a s z s' ⟨h, hz⟩ e
  have h3 : z = ⌈v a⌉ := h2
  exact ⟨s', h3 ▸ e, h1⟩

/-- C44 for `renf_elem_get_arb` with a precision `q ≥ 0`, in fields other than `ℚ` (where `Convergent`
says nothing of the quotient of two integers). -/
theorem C44_get_arb_partial (hK : K.Ok) (hα : K.IsRoot α) {A : ArbOps} (hA : A.Convergent)
    {N : NfOps K} (h : Rep K α I v s) (hf : 2 ≤ s.fld.prec) {a : Reg}
    (hp : EvalOk K s.fld (s.heap a).elem) (hl : K.isLinear = false) {q : ℤ} (hq : 0 ≤ q)
    (hq' : q + 2 < 2 ^ 63 - 1) :
    ∃ (P : ℤ) (n : ℕ), ∀ (R : Field → ℤ → Res Field) (fuel : ℕ),
      FieldInv (⟨A, N, R, fuel⟩ : Env K) α I → Refines R α I P → n ≤ fuel →
      ∃ b s', (⟨A, N, R, fuel⟩ : Env K).getArb a q s = .ok (b, s') ∧ v a ∈ b ∧ Rep K α I v s' := by
  obtain ⟨P, n, H⟩ := getArb_total (I := I) hK hα hA (h.wf a) hf hp hl hq hq'
  refine ⟨P, n, fun R fuel hE hR hn => ?_⟩
  obtain ⟨b, s', e, -⟩ := H ⟨A, N, R, fuel⟩ a v rfl hE hR hn s ⟨⟨h, rfl⟩, rfl⟩
  obtain ⟨h1, h2⟩ := getArb_spec hE a q s b s' h e
  exact ⟨b, s', e, h2, h1⟩

/-- If the generator is at least one in absolute value, the hypothesis `EvalOk` of the theorems above
holds of every element whose condition number can be computed at all. -/
theorem C44_evaluation_legal (hK : K.Ok) (hα : K.IsRoot α) (h1 : 1 ≤ |α|) {f : Field}
    (hf : 2 ≤ f.prec) (hm : α ∈ f.emb) {e : NfElem} (he : e.Wf K)
    (hc : condNumber e.num f.emb (max f.prec 16) ≠ none) : EvalOk K f e :=
  evalOk_of_one_le hK hα h1 hf hm he hc

/-! ### The theorems apply -/

/-- the enclosure of user 1 contains zero, so that the loop runs -/
example : (mem3.heap (.user 1)).emb.containsZero = true ∧ EvalOk K3 mem3.fld (mem3.heap (.user 1)).elem :=
  ⟨by decide +kernel, .inr ⟨2, by decide +kernel, by decide +kernel⟩⟩

/-- with floating point balls and a refinement that always succeeds the sign of `∛2 - 1` is found -/
example : ∃ n : ℕ, ∀ fuel, n ≤ fuel → ∃ s',
    (⟨fpArb, cubOps, idealRefine, fuel⟩ : Env K3).sgn (.user 1) mem3 = .ok (1, s') := by
  obtain ⟨P, n, H⟩ := C44_sgn_partial (N := cubOps) (a := .user 1) K3_ok K3_root fpArb_convergent
    mem3_rep fld3_good.prec (.inr ⟨2, by decide +kernel, by decide +kernel⟩)
  refine ⟨n, fun fuel hn => ?_⟩
  obtain ⟨s', e, -⟩ := H idealRefine fuel (ideal_inv fuel) (idealRefine_refines P) hn
  have : sgnR (val3 (.user 1)) = 1 := sgnR_pos (by
    have h := cbrt2_bounds.1
    have : cbrt2 ≠ 1 := by
      intro h
      have := cbrt2_pow
      rw [h] at this
      norm_num at this
    show 0 < cbrt2 - 1
    rcases lt_or_eq_of_le h with h | h
    · linarith
    · exact absurd h.symm this)
  rw [this] at e
  exact ⟨s', e⟩

/-- the comparison of `∛2 - 1` and `(1 + ∛4)/2`, whose enclosures overlap -/
example : ∃ n : ℕ, ∀ fuel, n ≤ fuel → ∃ s',
    (⟨fpArb, cubOps, idealRefine, fuel⟩ : Env K3).cmp (.user 1) (.user 2) mem3 =
      .ok (sgnR (cbrt2 - 1 - (1 + cbrt2 ^ 2) / 2), s') := by
  obtain ⟨P, n, H⟩ := C44_cmp_partial (N := cubOps) (a := 1) (b := 2) K3_ok K3_root fpArb_convergent
    mem3_rep fld3_good.prec (.inr ⟨2, by decide +kernel, by decide +kernel⟩)
    (.inr ⟨2, by decide +kernel, by decide +kernel⟩) (fun d hd hv => by
      obtain ⟨e, -⟩ := (NfElem.val_inj K3_ok K3_root hd (b := ⟨[-3, 2, -1], 2, 0⟩)
        ⟨by decide, by decide, by decide, by decide, by decide⟩).1 (hv.trans (by
          show cbrt2 - 1 - (1 + cbrt2 ^ 2) / 2 = _
          simp [NfElem.val, realValue, toPoly]; ring))
      refine C44_evaluation_legal K3_ok K3_root ?_ fld3_good.prec fld3_good.enc hd ?_
      · rw [abs_of_pos cbrt2_pos]; exact cbrt2_bounds.1
      · rw [e]; decide +kernel)
  refine ⟨n, fun fuel hn => ?_⟩
  obtain ⟨s', e, -⟩ := H idealRefine fuel (ideal_inv fuel) (idealRefine_refines P) hn
  exact ⟨s', e⟩

/-- the comparison of `∛2 - 1` with `13/50` -/
example : ∃ n : ℕ, ∀ fuel, n ≤ fuel → ∀ ndebug, ∃ s',
    (⟨fpArb, cubOps, idealRefine, fuel⟩ : Env K3).cmpQ (.user 1) (13 / 50) ndebug mem3 =
      .ok (sgnR (cbrt2 - 1 - (13 / 50 : ℚ)), s') := by
  obtain ⟨P, n, H⟩ := C44_cmp_fmpq_partial (N := cubOps) (a := 1) (c := 13 / 50) K3_ok K3_root
    fpArb_convergent mem3_rep fld3_good.prec (.inr ⟨2, by decide +kernel, by decide +kernel⟩)
    (fun d hd hv => by
      obtain ⟨e, -⟩ := (NfElem.val_inj K3_ok K3_root hd (b := ⟨[-63, 50], 50, 0⟩)
        ⟨by decide, by decide, by decide, by decide, by decide⟩).1 (hv.trans (by
          show cbrt2 - 1 - ((13 / 50 : ℚ) : ℝ) = _
          simp [NfElem.val, realValue, toPoly]; ring))
      refine C44_evaluation_legal K3_ok K3_root ?_ fld3_good.prec fld3_good.enc hd ?_
      · rw [abs_of_pos cbrt2_pos]; exact cbrt2_bounds.1
      · rw [e]; decide +kernel)
  refine ⟨n, fun fuel hn ndebug => ?_⟩
  obtain ⟨s', e, -⟩ := H idealRefine fuel ndebug (ideal_inv fuel) (idealRefine_refines P) hn
  exact ⟨s', e⟩

/-- the floor of `∛2 - 1` is found although its enclosure reaches from -1 to 1 -/
example : ∃ n : ℕ, ∀ fuel, n ≤ fuel → ∃ s',
    (⟨fpArb, cubOps, idealRefine, fuel⟩ : Env K3).floor (.user 1) mem3 = .ok (⌊cbrt2 - 1⌋, s') := by
  obtain ⟨P, n, H⟩ := C44_floor_partial (N := cubOps) (a := .user 1) K3_ok K3_root fpArb_convergent
    mem3_rep fld3_good.prec (.inr (by intro h; simp [mem3] at h))
    (.inr ⟨2, by decide +kernel, by decide +kernel⟩)
  refine ⟨n, fun fuel hn => ?_⟩
  obtain ⟨s', e, -⟩ := H idealRefine fuel (ideal_inv fuel) (idealRefine_refines P) hn
    (.inr (.inl ⟨0, 1, rfl, by decide +kernel⟩))
  exact ⟨s', e⟩

example : ∃ n : ℕ, ∀ fuel, n ≤ fuel → ∃ s',
    (⟨fpArb, cubOps, idealRefine, fuel⟩ : Env K3).ceil (.user 1) mem3 = .ok (⌈cbrt2 - 1⌉, s') := by
  obtain ⟨P, n, H⟩ := C44_ceil_partial (N := cubOps) (a := .user 1) K3_ok K3_root fpArb_convergent
    mem3_rep fld3_good.prec (.inr (by intro h; simp [mem3] at h))
    (.inr ⟨2, by decide +kernel, by decide +kernel⟩)
  refine ⟨n, fun fuel hn => ?_⟩
  obtain ⟨s', e, -⟩ := H idealRefine fuel (ideal_inv fuel) (idealRefine_refines P) hn
    (.inr (.inl ⟨0, 1, rfl, by decide +kernel⟩))
  exact ⟨s', e⟩

/-- a ball for `∛2 - 1` with 1000 bits is found -/
example : ∃ n : ℕ, ∀ fuel, n ≤ fuel → ∃ b s',
    (⟨fpArb, cubOps, idealRefine, fuel⟩ : Env K3).getArb (.user 1) 1000 mem3 = .ok (b, s') := by
  obtain ⟨P, n, H⟩ := C44_get_arb_partial (N := cubOps) (a := .user 1) (q := 1000) K3_ok K3_root
    fpArb_convergent mem3_rep fld3_good.prec (.inr ⟨2, by decide +kernel, by decide +kernel⟩)
    (by decide) (by norm_num) (by norm_num)
  refine ⟨n, fun fuel hn => ?_⟩
  obtain ⟨b, s', e, -⟩ := H idealRefine fuel (ideal_inv fuel) (idealRefine_refines P) hn
  exact ⟨b, s', e⟩

/-! ### The precision can be illegal -/

/-- the field of `2^(-161/2)` -/
def Ksmall : Nf := ⟨[-1, 0, 2 ^ 161]⟩

/-- the generator -/
noncomputable def small : ℝ := √2 / 2 ^ 81

/-- its enclosure with 63 bits -/
def smallField : Field :=
  { nf := Ksmall, emb := .fin (13043817825332782212 / 2 ^ 144) (1 / 2 ^ 144), prec := 64 }

theorem small_sq : small ^ 2 = 1 / 2 ^ 161 := by
  unfold small
  rw [div_pow, Real.sq_sqrt (by norm_num)]
  norm_num

theorem Ksmall_root : Ksmall.IsRoot small := by
  show (toPoly [-1, 0, 2 ^ 161]).eval small = 0
  have h := small_sq
  simp only [toPoly, Polynomial.eval_add, Polynomial.eval_C, Polynomial.eval_mul, Polynomial.eval_X,
    Polynomial.eval_zero]
  push_cast
  linear_combination 2 ^ 161 * h

theorem Ksmall_ok : Ksmall.Ok := by
  refine quadratic_ok (a := 2 ^ 161) (b := 0) (c := -1) (by norm_num) ?_
  intro q hq
  have h2 : (q / 2 ^ 81) ^ 2 = 2 := by
    rw [div_pow, hq]
    norm_num
  exact (irrational_sqrt_two).ne_rat |q / 2 ^ 81| (by
    rw [Real.sqrt_eq_iff_mul_self_eq (by norm_num) (by positivity)]
    have : ((q / 2 ^ 81 : ℚ) : ℝ) ^ 2 = 2 := by exact_mod_cast h2
    push_cast at this ⊢
    rw [← pow_two, sq_abs, this])

theorem small_pos : 0 < small := by unfold small; positivity

theorem smallField_enc : small ∈ smallField.emb := by
  show small ∈ Ball.fin (13043817825332782212 / 2 ^ 144) (1 / 2 ^ 144)
  have h := small_sq
  have h0 := small_pos
  rw [Ball.mem_fin]
  push_cast
  constructor
  · by_contra hc
    push Not at hc
    have : small ^ 2 < (13043817825332782212 / 2 ^ 144 - 1 / 2 ^ 144) ^ 2 :=
      pow_lt_pow_left₀ hc h0.le (by norm_num)
    rw [h] at this
    norm_num at this
  · by_contra hc
    push Not at hc
    have : (13043817825332782212 / 2 ^ 144 + 1 / 2 ^ 144 : ℝ) ^ 2 < small ^ 2 :=
      pow_lt_pow_left₀ hc (by norm_num) (by norm_num)
    rw [h] at this
    norm_num at this

/-- fresh variables -/
def smallMem : Mem := ⟨smallField, fun _ => ⟨NfElem.init Ksmall, Ball.exact 0⟩⟩

theorem smallMem_rep : Rep Ksmall small (fun f => f = smallField) (fun _ => 0) smallMem where
  inv := rfl
  wf _ := init_wf Ksmall_ok
  val _ := init_val
  enc _ := Ball.mem_exact.2 (by simp)

/-- generator, plus one, minus one, sign -/
def smallProg (E : Env Ksmall) : M ℤ := do
  E.gen (.user 0)
  E.addZ (.user 0) (.user 0) 1
  E.subZ (.user 0) (.user 0) 1
  E.sgn (.user 0)

/-- running a sequence -/
theorem M.bind_run {β γ : Type} {m : M β} {f : β → M γ} {s s' : Mem} {b : β} (h : m s = .ok (b, s')) :
    (m >>= f) s = f b s' := by
  show (match m s with
    | .ok (a, s') => f a s'
    | .running => .running
    | .abort => .abort
    | .throw w => .throw w
    | .ub => .ub) = _
  rw [h]

/-- The full C44 is FALSE of the code: in the field of `α = 2^(-161/2)` with the default precision of
64 bits and an enclosure accurate to 63 bits, computing `(α + 1) - 1` and asking for its sign calls
Arb with the negative precision `64 - 80`.  This holds for every implementation of the exact
arithmetic and of the refinement. -/
theorem C44_precision_counterexample (N : NfOps Ksmall) (R : Field → ℤ → Res Field) (fuel : ℕ) :
    Ksmall.Ok ∧ Ksmall.IsRoot small ∧ small ∈ smallField.emb ∧
      smallProg ⟨fpArb, N, R, fuel⟩ smallMem = .ub := by
  refine ⟨Ksmall_ok, Ksmall_root, smallField_enc, ?_⟩
  have w1 : (N.setPoly (NfElem.init Ksmall) [0, 1] 1).Wf Ksmall := N.setPoly_wf (by norm_num)
  have v1 := N.setPoly_val (d := NfElem.init Ksmall) (n := [0, 1]) (q := 1) (by norm_num) Ksmall_root
  set e1 := N.setPoly (NfElem.init Ksmall) [0, 1] 1 with h1
  have w2 : (N.addQ e1 e1 1).Wf Ksmall := N.addQ_wf w1
  have v2 := N.addQ_val (d := e1) (q := 1) w1 Ksmall_root
  set e2 := N.addQ e1 e1 1 with h2
  have w3 : (N.subQ e2 e2 1).Wf Ksmall := N.subQ_wf w2
  have v3 := N.subQ_val (d := e2) (q := 1) w2 Ksmall_root
  set e3 := N.subQ e2 e2 1 with h3
  have w0 : (⟨[0, 1], 1, 0⟩ : NfElem).Wf Ksmall := by
    constructor <;> decide
  have v0 : (⟨[0, 1], 1, 0⟩ : NfElem).val small = e3.val small := by
    rw [v3, v2, v1]; simp [NfElem.val]
  obtain ⟨n3, -⟩ := (NfElem.val_inj Ksmall_ok Ksmall_root w0 w3).1 v0
  simp only at n3
  have hrat : e3.isRational Ksmall = false := by
    have hl : Ksmall.isLinear = false := rfl
    have hq : Ksmall.isQuadratic = true := rfl
    simp [NfElem.isRational, hl, hq, ← n3]
  set b := fpArb.subFmpz (fpArb.addFmpz (evalArbQ fpArb [0, 1] 1 smallField.emb 64) 1 64) 1 64
    with hb
  have hz : b.containsZero = true := by rw [hb]; decide +kernel
  set s₁ := smallMem.write (.user 0) ⟨e1, evalArbQ fpArb [0, 1] 1 smallField.emb 64⟩ with hs1
  set s₂ := s₁.write (.user 0)
    ⟨e2, fpArb.addFmpz (evalArbQ fpArb [0, 1] 1 smallField.emb 64) 1 64⟩ with hs2
  set s₃ := s₂.write (.user 0) ⟨e3, b⟩ with hs3
  have r1 : (⟨fpArb, N, R, fuel⟩ : Env Ksmall).gen (.user 0) smallMem = .ok ((), s₁) := rfl
  have r2 : (⟨fpArb, N, R, fuel⟩ : Env Ksmall).addZ (.user 0) (.user 0) 1 s₁ = .ok ((), s₂) := rfl
  have r3 : (⟨fpArb, N, R, fuel⟩ : Env Ksmall).subZ (.user 0) (.user 0) 1 s₂ = .ok ((), s₃) := rfl
  unfold smallProg
  rw [M.bind_run r1, M.bind_run r2, M.bind_run r3]
  have g : s₃.heap (.user 0) = ⟨e3, b⟩ := rfl
  have r4 : M.read (.user 0) s₃ = .ok (⟨e3, b⟩, s₃) := rfl
  have r5 : (⟨fpArb, N, R, fuel⟩ : Env Ksmall).getCond (.user 0) s₃ = .ok (-80, s₃) := by
    obtain ⟨z, s', e, h, rfl⟩ := getCond_total (E := ⟨fpArb, N, R, fuel⟩) (a := .user 0) (e := e3)
      (f := smallField) (c := -80) hrat (by rw [← n3]; decide +kernel) (Pre := fun s => s = s₃)
      (by rintro s rfl; exact ⟨rfl, rfl⟩) s₃ rfl
    rw [e, h]
  have r6 : Env.startPrec s₃ = .ok (64, s₃) := by
    have : max smallField.prec smallField.emb.relAccuracyBits = 64 := by decide +kernel
    show Res.ok (max smallField.prec smallField.emb.relAccuracyBits, s₃) = _
    rw [this]
  unfold Env.sgn
  rw [M.bind_run r4]
  simp only [hrat, hz, Bool.not_true, Bool.false_eq_true, if_false]
  rw [M.bind_run r5, M.bind_run r6]
  rfl

end EAntic
