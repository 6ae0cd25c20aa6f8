import Verif.Lemmas.EndsOps
import Verif.Lemmas.Agree
import Verif.Props.Elements
import Verif.Lemmas.Demo
import Verif.Lemmas.NfInst
import Verif.Props.Termination

/-!
# Property C44, end to end: the queries end, with the modelled refinement

No hypothesis on the refinement of the field is left: it is `renf_refine_embedding` as modelled.
The hypotheses on the ball arithmetic are `Convergent` and `Tight`; `Start`, `Sane`, `Sizeable` are
defined in `Spec/Near.lean`, `Ends` in `Spec/Ends.lean`.
-/

namespace EAntic
open Polynomial

/-- C44 for a field of degree at least two whose root is enclosed tightly enough.  From every
reachable memory each query ends with the right answer, unless a refinement asks for more bits than
a machine word counts.  Where the first argument of `Ends` is `True`, the call may instead `abort`
because the binary exponent of an enclosure does not fit into a word.  What is missing for the full
statement: enclosures that are not tight (see `C55_counterexample`), and numbers that are not
`Sizeable` at the precision of the field (see `C44_precision_counterexample`; at high precision all numbers
are, see `C44_high_precision`).  `p` is any lower bound of the precision. -/
theorem C44_queries_end_partial {K : Nf} (hK : K.Ok) (h3 : 3 ≤ K.pol.length) {α : ℝ}
    (hα : K.IsRoot α) (hs : K.Sane α) {A : ArbOps} (hT : A.Tight) (hC : A.Convergent) :
    ∃ δ : ℝ, 0 < δ ∧ ∀ (nd : Bool) (N : NfOps K) (p : ℤ), 2 ≤ p → p ≤ 2 ^ 63 →
      ∀ (v : Reg → ℝ) (s : Mem), Rep K α (Start K α δ p nd) v s →
      -- sign
      (∀ a : ℕ, Sizeable K α p (v (.user a)) →
        Ends False (fun k => (envs A N (refineAt A nd) k).sgn (.user a)) s
          fun z s' => Rep K α (Start K α δ p nd) v s' ∧ z = sgnR (v (.user a))) ∧
      -- comparison of two elements
      (∀ a b : ℕ, Sizeable K α p (v (.user a)) → Sizeable K α p (v (.user b)) →
        Sizeable K α p (v (.user a) - v (.user b)) →
        Ends False (fun k => (envs A N (refineAt A nd) k).cmp (.user a) (.user b)) s
          fun z s' => Rep K α (Start K α δ p nd) v s' ∧ z = sgnR (v (.user a) - v (.user b))) ∧
      -- comparison with a rational number
      (∀ (a : ℕ) (c : ℚ) (d : Bool), Sizeable K α p (v (.user a)) → Sizeable K α p (v (.user a) - c) →
        Ends False (fun k => (envs A N (refineAt A nd) k).cmpQ (.user a) c d) s
          fun z s' => Rep K α (Start K α δ p nd) v s' ∧ z = sgnR (v (.user a) - c)) ∧
      -- enclosure with a given precision
      (∀ (a : ℕ) (q : ℤ), Sizeable K α p (v (.user a)) → 0 ≤ q → q + 2 < 2 ^ 63 - 1 →
        Ends False (fun k => (envs A N (refineAt A nd) k).getArb (.user a) q) s
          fun b s' => Rep K α (Start K α δ p nd) v s' ∧ v (.user a) ∈ b) ∧
      -- conversion to double
      (∀ (a : ℕ) (rnd : Rnd), (∀ x : ℝ, |x| = |v (.user a)| → Sizeable K α p x ∧
          Sizeable K α p (x - (uintMax : ℚ)) ∧ Sizeable K α p (x - (dblMax : ℚ))) →
        Ends False (fun k => (envs A N (refineAt A nd) k).getD (.user a) rnd) s
          fun d s' => Rep K α (Start K α δ p nd) v s' ∧
            (∀ q : ℚ, v (.user a) = q → d = arfGetD rnd (arfRound rnd 53 q)) ∧
            (Irrational (v (.user a)) → |v (.user a)| ≤ dblMax → RoundsTo rnd (v (.user a)) d) ∧
            (Irrational (v (.user a)) → (dblMax : ℝ) < v (.user a) → d = .inf) ∧
            (Irrational (v (.user a)) → v (.user a) < -dblMax → d = .ninf)) ∧
      -- floor and ceiling
      (∀ a : ℕ, Sizeable K α p (v (.user a)) → (v (.user a) ≠ 0 ∨ Clean s (.user a)) →
        Ends True (fun k => (envs A N (refineAt A nd) k).floor (.user a)) s
          fun z s' => Rep K α (Start K α δ p nd) v s' ∧ z = ⌊v (.user a)⌋) ∧
      (∀ a : ℕ, Sizeable K α p (v (.user a)) → (v (.user a) ≠ 0 ∨ Clean s (.user a)) →
        Ends True (fun k => (envs A N (refineAt A nd) k).ceil (.user a)) s
          fun z s' => Rep K α (Start K α δ p nd) v s' ∧ z = ⌈v (.user a)⌉) ∧
      -- floor of a quotient
      (∀ b c : ℕ, v (.user c) ≠ 0 → Sizeable K α p (v (.user b)) → Sizeable K α p (v (.user c)) →
        Sizeable K α p (v (.user b) / v (.user c)) →
        (∀ z : ℤ, |(z : ℝ) - v (.user b) / v (.user c)| < 1 →
          Sizeable K α p (v (.user c) * z) ∧ Sizeable K α p (v (.user c) * z - v (.user b))) →
        Ends True (fun k => (envs A N (refineAt A nd) k).fdiv (.user b) (.user c)) s
          fun z s' => Rep K α (Start K α δ p nd) v s' ∧ z = ⌊v (.user b) / v (.user c)⌋) ∧
      -- the first `n` terms of the continued fraction
      (∀ (rem a : ℕ) (n : ℕ),
        (v (.user a) ≠ 0 → ∀ i ≤ n, Sizeable K α p (cfRem (v (.user a)) i)) →
        Ends True (fun k => (envs A N (refineAt A nd) k).getCfrac (.user rem) (.user a) n) s
          fun l s' => Rep K α (Start K α δ p nd)
              (upd v (.user rem) (if v (.user a) = 0 then 0 else cfRem (v (.user a)) n)) s' ∧
            l = if v (.user a) = 0 then [] else cfTerms (v (.user a)) n) := by
  obtain ⟨δ, hδ, hδ2, H⟩ := near_ends hK h3 hα hs hT
  have hlin : K.isLinear = false := by
    unfold Nf.isLinear
    simp
    omega
  refine ⟨δ, hδ, fun nd N p hp hp' v s hr => ?_⟩
  obtain ⟨hE, hR⟩ := H nd N p hp
  have L : ∀ {x}, Sizeable K α p x → LegalAt K α (Start K α δ p nd) x := fun h =>
    legal_of_sizeable hδ2 hp hp' h
  refine ⟨fun a h => sgn_ends hC hE hR (L h) hr,
    fun a b ha hb hd => cmp_ends hC hE hR (by simp) (by simp) (L ha) (L hb) (L hd) hr,
    fun a c d ha hd => cmpQ_ends hC hE hR (by simp) (L ha) (L hd) hr,
    fun a q ha h0 h1 => getArb_ends hC hE hR hlin (L ha) h0 h1 hr,
    fun a rnd h => ?_, fun a h hz => ?_, fun a h hz => ?_, fun b c h0 hb hc hq hz => ?_,
    fun rem a n h => ?_⟩
  · exact ((getD_ends hC hE hR (by simp) (fun x hx => ⟨L (h x hx).1, L (h x hx).2.1, L (h x hx).2.2⟩)
      rnd hr).and_hoare (fun k => getD_spec (hE k) (by simp) rnd) hr).mono fun _ _ h => h.2
  · exact ((round_ends hC hE hR trivial .floor (L h) hr).and_hoare
      (fun k => round_spec (hE k) .floor (.user a)) ⟨hr, hz⟩).mono fun _ _ h => h.2
  · exact ((round_ends hC hE hR trivial .ceil (L h) hr).and_hoare
      (fun k => round_spec (hE k) .ceil (.user a)) ⟨hr, hz⟩).mono fun _ _ h => h.2
  · exact fdiv_ends hC hT.divConvergent hE hR trivial (by simp) (by simp) h0 (L hb) (L hc) (L hq)
      (fun z h => ⟨L (hz z h).1, L (hz z h).2⟩) hr
  · exact ((getCfrac_ends hC hE hR trivial n (fun h0 i hi => L (h h0 i hi)) hr).and_hoare
      (fun k => getCfrac_spec (hE k) (.user rem) (.user a) n) hr).mono fun _ _ h => h.2

/-- C44 for whole programs.  In a field of degree at least two whose root is enclosed tightly enough,
every sequence of calls that respects the preconditions (`LegalProgram`, in terms of exact real
numbers) comes to an end, with the answers of the exact calculator (`Steps`) and with elements that
hold its numbers.  Otherwise the working precision of a refinement overflows a machine word, or a
call that rounds to an integer aborts because an exponent does.  `k` bounds the number of rounds of
all loops: the outcome does not depend on it; `p` is any lower bound of the precision of the field. -/
theorem C44_programs_end_partial {K : Nf} (hK : K.Ok) (h3 : 3 ≤ K.pol.length) {α : ℝ}
    (hα : K.IsRoot α) (hs : K.Sane α) {A : ArbOps} (hT : A.Tight) (hC : A.Convergent) :
    ∃ δ : ℝ, 0 < δ ∧ ∀ (nd : Bool) (N : NfOps K) (f : Field), f.Near K α δ →
      (f.immutable = true → nd = true) → ∀ p : ℤ, 2 ≤ p → p ≤ f.prec → p ≤ 2 ^ 63 →
      ∀ ops : List Op, LegalProgram K α p (fun _ => 0) ops →
      ∃ n : ℕ,
        (∃ (as : List Ans) (s' : Mem) (v' : ℕ → ℝ), Steps K α (fun _ => 0) ops as v' ∧
          (∀ a, (s'.heap (.user a)).elem.val α = v' a ∧ v' a ∈ (s'.heap (.user a)).emb) ∧
          ∀ k, n ≤ k →
            (⟨A, N, refineEmbedding A nd k, k⟩ : Env K).run ops (freshMem f) = .ok (as, s')) ∨
        (∀ k, n ≤ k →
          (⟨A, N, refineAt A nd k, k⟩ : Env K).run ops (freshMem f) = .throw "overflow") ∨
        ((∃ op ∈ ops, op.rounds = true) ∧ ∀ k, n ≤ k →
          (⟨A, N, refineEmbedding A nd k, k⟩ : Env K).run ops (freshMem f) = .abort) := by
  obtain ⟨δ, hδ, hδ2, H⟩ := near_ends hK h3 hα hs hT
  have hlin : K.isLinear = false := by
    unfold Nf.isLinear
    simp
    omega
  refine ⟨δ, hδ, fun nd N f hf hi p hp hpf hp' ops hl => ?_⟩
  obtain ⟨hE, hR⟩ := H nd N p hp
  have ag : ∀ k, Agree ((⟨A, N, refineEmbedding A nd k, k⟩ : Env K).run ops)
      ((⟨A, N, refineAt A nd k, k⟩ : Env K).run ops) := by
    refine fun k => run_agree (fun f p => ?_) ops
    unfold refineAt
    cases refineEmbedding A nd k f p <;> rfl
  have back : ∀ {k r}, (⟨A, N, refineAt A nd k, k⟩ : Env K).run ops (freshMem f) = r →
      r.reportOverflow = r → (∀ w, r ≠ .throw w) →
      (⟨A, N, refineEmbedding A nd k, k⟩ : Env K).run ops (freshMem f) = r := by
    intro k r h h1 h2
    have := ag k (freshMem f)
    rw [h, h1] at this
    rcases hm : (⟨A, N, refineEmbedding A nd k, k⟩ : Env K).run ops (freshMem f) with _ | _ | _ | _ | _ <;>
      rw [hm] at this <;> try exact this
    exact absurd this.symm (h2 _)
  obtain ⟨n, h⟩ := run_ends (V := ∃ op ∈ ops, op.rounds = true) hT hC hE hR hlin
    (fun x hx => legal_of_sizeable hδ2 hp hp' hx) ops (fun _ => 0) (freshMem f) id hl
    (freshMem_rep (hE 0) ⟨hf, hpf, hi⟩)
  refine ⟨n, ?_⟩
  rcases h with ⟨as, s', ⟨v', hv', hst⟩, h⟩ | h | ⟨hv, h⟩
  · refine .inl ⟨as, s', usr v', hst, fun a => ⟨hv'.val _, hv'.enc _⟩, fun k hk => ?_⟩
    exact back (h k hk) rfl (by simp)
  · exact .inr (.inl h)
  · exact .inr (.inr ⟨hv, fun k hk => back (h k hk) rfl (by simp)⟩)

/-- C44, which precision is enough.  From some precision on, given by the size of the root, the lower bound of
`Sizeable` holds for all elements: what is left is that the coefficients fit into the address space.  Together
with `C44_queries_end_partial` and `C44_programs_end_partial`: in a field that is made with a precision that is
high enough no call of Arb is made with an illegal precision, contrary to `C44_precision_counterexample`. -/
theorem C44_high_precision {K : Nf} (hK : K.Ok) (h3 : 3 ≤ K.pol.length) {α : ℝ} (hα : K.IsRoot α) :
    ∃ P : ℤ, 2 ≤ P ∧ ∀ p, P ≤ p → ∀ e : NfElem, e.Wf K →
      (∃ k : ℤ, (toPoly (e.num.map (|·|))).eval (2 * (|α| + 1)) ≤ 2 ^ k ∧ k + 1 < 2 ^ 63) →
      Sizeable K α p (e.val α) := by
  have h0 : α ≠ 0 := by
    have := root_irrational hK h3 hα 0
    simpa using this
  obtain ⟨n, hn⟩ := exists_pow_lt_of_lt_one (show (0 : ℝ) < |α| ^ (K.degree - 1) by positivity)
    (show (1 / 2 : ℝ) < 1 by norm_num)
  refine ⟨n + 2, by omega, fun p hp e he ⟨k, hk, hk2⟩ => ?_⟩
  refine sizeable_of_pow hK hα (by omega) ?_ he hk hk2
  calc (2 : ℝ) ^ (2 - p) ≤ 2 ^ (-(n : ℤ)) := zpow_le_zpow_right₀ (by norm_num) (by omega)
    _ = (1 / 2) ^ n := by rw [zpow_neg, zpow_natCast, one_div, inv_pow]
    _ ≤ _ := hn.le

/-! ### The theorems apply -/

theorem K3_sane : K3.Sane cbrt2 := by
  refine ⟨8, ?_, by simp [K3]⟩
  obtain ⟨h1, h2⟩ := cbrt2_bounds
  rw [abs_of_nonneg (by linarith)]
  simp only [K3, List.map_cons, List.map_nil, toPoly, eval_add, eval_C, eval_mul, eval_X]
  norm_num
  nlinarith [mul_nonneg (sub_nonneg.2 h1) (sub_nonneg.2 h1), mul_nonneg (sub_nonneg.2 h1) (sub_nonneg.2 h2),
    mul_nonneg (mul_nonneg (sub_nonneg.2 h1) (sub_nonneg.2 h2)) (sub_nonneg.2 h1)]

/-- `∛2 - 1` in the memory `mem3`, whose ball there contains 0 -/
theorem mem3_sizeable : Sizeable K3 cbrt2 64 (val3 (.user 1)) := by
  obtain ⟨h1, h2⟩ := cbrt2_bounds
  have := sizeable_of_one_le K3_ok K3_root (by rw [abs_of_nonneg (by linarith)]; exact h1)
    (mem3_rep.wf (.user 1)) (p := 64) (by norm_num) (k := 3) (by
      rw [abs_of_nonneg (by linarith)]
      simp only [mem3, List.map_cons, List.map_nil, toPoly, eval_add, eval_C, eval_mul, eval_X]
      norm_num
      linarith) (by norm_num)
  rwa [mem3_rep.val] at this

/-- With floating point balls there is a rational enclosure of `∛2` from which the sign of
`∛2 - 1` is found to be `1`, and its floor to be `0`. -/
example : ∃ m r : ℚ, cbrt2 ∈ Ball.fin m r ∧
    Ends False (fun k => (envs fpArb cubOps (refineAt fpArb false) k).sgn (.user 1))
      { mem3 with fld := ⟨K3, .fin m r, 64, false⟩ } (fun z _ => z = 1) ∧
    Ends True (fun k => (envs fpArb cubOps (refineAt fpArb false) k).floor (.user 1))
      { mem3 with fld := ⟨K3, .fin m r, 64, false⟩ } (fun z _ => z = 0) := by
  obtain ⟨δ, hδ, H⟩ := C44_queries_end_partial K3_ok (by decide) K3_root K3_sane fpArb_tight
    fpArb_convergent
  obtain ⟨r, r0, r1⟩ := exists_rat_btwn hδ
  obtain ⟨m, m0, m1⟩ := exists_rat_btwn (show cbrt2 - r < cbrt2 by linarith)
  have hm : cbrt2 ∈ Ball.fin m r := by
    rw [Ball.mem_fin]; constructor <;> linarith
  have hrep : Rep K3 cbrt2 (Start K3 cbrt2 δ 64 false) val3 { mem3 with fld := ⟨K3, .fin m r, 64, false⟩ } :=
    ⟨⟨⟨rfl, m, r, rfl, hm, r1.le⟩, le_rfl, by simp⟩, mem3_rep.wf,
      mem3_rep.val, mem3_rep.enc⟩
  obtain ⟨h1, -, -, -, -, h2, -⟩ := H false cubOps 64 (by norm_num) (by norm_num) val3 _ hrep
  obtain ⟨b1, b2⟩ := cbrt2_bounds
  have hne : val3 (.user 1) ≠ 0 := by
    show cbrt2 - 1 ≠ 0
    intro h
    have := cbrt2_pow
    rw [show cbrt2 = 1 by linarith] at this
    norm_num at this
  have hpos : 0 < val3 (.user 1) := lt_of_le_of_ne (by show 0 ≤ cbrt2 - 1; linarith) hne.symm
  refine ⟨m, r, hm, (h1 1 mem3_sizeable).mono fun z _ h => ?_,
    (h2 1 mem3_sizeable (.inl hne)).mono fun z _ h => ?_⟩
  · rw [h.2]
    simp [sgnR, hpos]
  · rw [h.2, Int.floor_eq_zero_iff]
    exact ⟨hpos.le, by show cbrt2 - 1 < 1; linarith⟩

/-- the generator is stored, one subtracted, the sign asked for and the square compared with 2 -/
def prog3 : List Op := [.gen 0, .addZ 1 0 (-1), .sgn 1, .mul 2 0 0, .cmpQ 2 2, .floor 2]

theorem sizeable3 {e : NfElem} (he : e.Wf K3) (hc : ∀ c ∈ e.num, |c| ≤ 2) {x : ℝ}
    (hx : e.val cbrt2 = x) {p : ℤ} (hp : 2 ≤ p) : Sizeable K3 cbrt2 p x := by
  obtain ⟨h1, h2⟩ := cbrt2_bounds
  subst hx
  refine sizeable_of_one_le K3_ok K3_root (by rw [abs_of_nonneg (by linarith)]; exact h1) he hp (k := 6) ?_
    (by norm_num)
  have hl : e.num.length ≤ 3 := (he.generic rfl rfl).1
  have hb : ∀ (n : ℕ) (l : List ℤ), l.length ≤ n → (∀ c ∈ l, |c| ≤ 2) →
      (toPoly (l.map (|·|))).eval 5 ≤ ((5 : ℝ) ^ n - 1) / 2 := by
    intro n
    induction n with
    | zero => intro l hl _; rw [List.length_eq_zero_iff.1 (Nat.le_zero.1 hl)]; simp [toPoly]
    | succ n ih =>
      intro l hl hc
      cases l with
      | nil =>
        have : (1 : ℝ) ≤ 5 ^ (n + 1) := one_le_pow₀ (by norm_num)
        simp [toPoly]
        linarith
      | cons c l =>
        have h3 := ih l (by simpa using hl) fun x hx => hc x (by simp [hx])
        have h4 : ((|c| : ℤ) : ℝ) ≤ 2 := by exact_mod_cast hc c (by simp)
        simp only [List.map_cons, toPoly, eval_add, eval_C, eval_mul, eval_X]
        rw [pow_succ]
        push_cast at h4 ⊢
        linarith
  have h3 := hb 3 e.num hl hc
  have h4 := abs_eval_mono e.num (s := 2 * (|cbrt2| + 1)) (t := 5) (by positivity)
    (by rw [abs_of_nonneg (by linarith)]; linarith)
  norm_num at h3 ⊢
  linarith

theorem prog3_legal {p : ℤ} (hp : 2 ≤ p) : LegalProgram K3 cbrt2 p (fun _ => 0) prog3 := by
  have wf : ∀ l ∈ ([[-1, 1], [0, 0, 1], [-2, 0, 1]] : List (List ℤ)), (⟨l, 1, 0⟩ : NfElem).Wf K3 := by
    intro l hl
    have hl' : K3.isLinear = false := rfl
    have hq : K3.isQuadratic = false := rfl
    refine ⟨show (0 : ℤ) < 1 by norm_num, ?_, by rw [hl']; simp, by rw [hq]; simp, fun _ _ => ?_⟩
    · show Nat.gcd 1 _ = 1
      simp
    · simp only [List.mem_cons, List.not_mem_nil, or_false] at hl
      rcases hl with rfl | rfl | rfl <;> decide
  have s1 : Sizeable K3 cbrt2 p (cbrt2 - 1) :=
    sizeable3 (wf [-1, 1] (by simp)) (by decide) (by simp [NfElem.val, realValue, toPoly]; ring) hp
  have s2 : Sizeable K3 cbrt2 p (cbrt2 * cbrt2) :=
    sizeable3 (wf [0, 0, 1] (by simp)) (by decide) (by simp [NfElem.val, realValue, toPoly]) hp
  have s3 : Sizeable K3 cbrt2 p (cbrt2 * cbrt2 - 2) :=
    sizeable3 (wf [-2, 0, 1] (by simp)) (by decide) (by simp [NfElem.val, realValue, toPoly]; ring) hp
  have hg : genValue K3 cbrt2 = cbrt2 := rfl
  simp only [prog3, LegalProgram, LegalCall, Step]
  refine ⟨trivial, ?_⟩
  rintro - w1 ⟨-, h1⟩
  refine ⟨trivial, ?_⟩
  rintro - w2 ⟨-, h2⟩
  have e1 : w2 1 = cbrt2 - 1 := by rw [h2, h1, hg]; simp; ring
  have e0 : w2 0 = cbrt2 := by rw [h2, h1, hg]; simp
  refine ⟨e1 ▸ s1, ?_⟩
  rintro - w3 ⟨rfl, -⟩
  refine ⟨trivial, ?_⟩
  rintro - w4 ⟨-, h4⟩
  have e2 : w4 2 = cbrt2 * cbrt2 := by rw [h4, e0]; simp
  refine ⟨⟨e2 ▸ s2, by rw [e2]; exact s3⟩, ?_⟩
  rintro - w5 ⟨rfl, -⟩
  exact ⟨e2 ▸ s2, fun _ _ _ => trivial⟩

/-- With floating point balls there is a rational enclosure of `∛2` from which the program comes to
an end, in one of the three ways. -/
example : ∃ m r : ℚ, cbrt2 ∈ Ball.fin m r ∧ ∃ n : ℕ,
    (∃ (as : List Ans) (s' : Mem) (v' : ℕ → ℝ), Steps K3 cbrt2 (fun _ => 0) prog3 as v' ∧ ∀ k, n ≤ k →
      (⟨fpArb, cubOps, refineEmbedding fpArb false k, k⟩ : Env K3).run prog3
        (freshMem ⟨K3, .fin m r, 64, false⟩) = .ok (as, s')) ∨
    (∀ k, n ≤ k → (⟨fpArb, cubOps, refineAt fpArb false k, k⟩ : Env K3).run prog3
        (freshMem ⟨K3, .fin m r, 64, false⟩) = .throw "overflow") ∨
    ∀ k, n ≤ k → (⟨fpArb, cubOps, refineEmbedding fpArb false k, k⟩ : Env K3).run prog3
        (freshMem ⟨K3, .fin m r, 64, false⟩) = .abort := by
  obtain ⟨δ, hδ, H⟩ := C44_programs_end_partial K3_ok (by decide) K3_root K3_sane fpArb_tight
    fpArb_convergent
  obtain ⟨r, r0, r1⟩ := exists_rat_btwn hδ
  obtain ⟨m, m0, m1⟩ := exists_rat_btwn (show cbrt2 - r < cbrt2 by linarith)
  have hm : cbrt2 ∈ Ball.fin m r := by
    rw [Ball.mem_fin]; constructor <;> linarith
  obtain ⟨n, h⟩ := H false cubOps ⟨K3, .fin m r, 64, false⟩ ⟨rfl, m, r, rfl, hm, r1.le⟩
    (by simp) 64 (by norm_num) le_rfl (by norm_num) prog3 (prog3_legal (by norm_num))
  refine ⟨m, r, hm, n, ?_⟩
  rcases h with ⟨as, s', v', h1, -, h2⟩ | h | ⟨-, h⟩
  · exact .inl ⟨as, s', v', h1, h2⟩
  · exact .inr (.inl h)
  · exact .inr (.inr h)

/-- and it does end well from six digits of `∛2`: the answers are `1` for the sign, `-1` for the
comparison of `∛4` with 2, and `1` for the floor of `∛4` -/
example : (match (⟨fpArb, cubOps, refineEmbedding fpArb false 64, 64⟩ : Env K3).run prog3
    (freshMem ⟨K3, .fin (82570 / 65536) (1 / 65536), 64, false⟩) with
    | .ok (as, _) => as | _ => []) = [.unit, .unit, .int 1, .unit, .int (-1), .int 1] := by
  decide +kernel

/-! The field of `2^(-161/2)`, where precision 64 is too low (`C44_precision_counterexample`): precision 128 is
enough. -/

theorem small_bounds : 1 / 2 ^ 81 ≤ small ∧ small ≤ 1 := by
  have h := small_sq
  have h0 := small_pos
  constructor
  · refine (pow_le_pow_iff_left₀ (by positivity) h0.le two_ne_zero).1 ?_
    rw [h]; norm_num
  · refine (pow_le_pow_iff_left₀ h0.le zero_le_one two_ne_zero).1 ?_
    rw [h]; norm_num

theorem Ksmall_sane : Ksmall.Sane small := by
  refine ⟨166, ?_, by simp [Ksmall]⟩
  obtain ⟨h1, h2⟩ := small_bounds
  rw [abs_of_nonneg small_pos.le]
  have : (2 * (small + 1)) ^ 2 ≤ 16 := by nlinarith [small_pos]
  simp only [Ksmall, List.map_cons, List.map_nil, toPoly, eval_add, eval_C, eval_mul, eval_X]
  norm_num
  nlinarith

theorem small_sizeable : Sizeable Ksmall small 128 small := by
  have hw : (⟨[0, 1], 1, 0⟩ : NfElem).Wf Ksmall := by constructor <;> decide
  have hv : (⟨[0, 1], 1, 0⟩ : NfElem).val small = small := by simp [NfElem.val, realValue, toPoly]
  obtain ⟨h1, h2⟩ := small_bounds
  have := sizeable_of_pow Ksmall_ok Ksmall_root (p := 128) (by norm_num) (by
    show (2 : ℝ) ^ (2 - 128 : ℤ) ≤ |small| ^ 1
    rw [pow_one, abs_of_nonneg small_pos.le]
    refine le_trans ?_ h1
    norm_num) hw (k := 3) (by
      rw [abs_of_nonneg small_pos.le]
      simp only [List.map_cons, List.map_nil, toPoly, eval_add, eval_C, eval_mul, eval_X]
      norm_num
      linarith) (by norm_num)
  rwa [hv] at this

/-- the program of `C44_precision_counterexample`: the generator, plus one, minus one, its sign -/
def smallOps : List Op := [.gen 0, .addZ 0 0 1, .addZ 0 0 (-1), .sgn 0]

theorem smallOps_legal : LegalProgram Ksmall small 128 (fun _ => 0) smallOps := by
  have hg : genValue Ksmall small = small := rfl
  simp only [smallOps, LegalProgram, LegalCall, Step]
  refine ⟨trivial, ?_⟩
  rintro - w1 ⟨-, h1⟩
  refine ⟨trivial, ?_⟩
  rintro - w2 ⟨-, h2⟩
  refine ⟨trivial, ?_⟩
  rintro - w3 ⟨-, h3⟩
  have e : w3 0 = small := by rw [h3, h2, h1, hg]; simp
  exact ⟨e ▸ small_sizeable, fun _ _ _ => trivial⟩

/-- there is an enclosure of `2^(-161/2)` from which the program, at precision 128, ends: with the sign of
exact arithmetic, unless the working precision of a refinement overflows -/
example : ∃ m r : ℚ, small ∈ Ball.fin m r ∧ ∃ n : ℕ,
    (∃ (as : List Ans) (s' : Mem), as.getLast? = some (.int 1) ∧ ∀ k, n ≤ k →
      (⟨fpArb, nfOps Ksmall_ok, refineEmbedding fpArb false k, k⟩ : Env Ksmall).run smallOps
        (freshMem ⟨Ksmall, .fin m r, 128, false⟩) = .ok (as, s')) ∨
    ∀ k, n ≤ k → (⟨fpArb, nfOps Ksmall_ok, refineAt fpArb false k, k⟩ : Env Ksmall).run smallOps
        (freshMem ⟨Ksmall, .fin m r, 128, false⟩) = .throw "overflow" := by
  obtain ⟨δ, hδ, H⟩ := C44_programs_end_partial Ksmall_ok (by decide) Ksmall_root Ksmall_sane fpArb_tight
    fpArb_convergent
  obtain ⟨r, r0, r1⟩ := exists_rat_btwn hδ
  obtain ⟨m, m0, m1⟩ := exists_rat_btwn (show small - r < small by linarith)
  have hm : small ∈ Ball.fin m r := by
    rw [Ball.mem_fin]; constructor <;> linarith
  obtain ⟨n, h⟩ := H false (nfOps Ksmall_ok) ⟨Ksmall, .fin m r, 128, false⟩ ⟨rfl, m, r, rfl, hm, r1.le⟩
    (by simp) 128 (by norm_num) le_rfl (by norm_num) smallOps smallOps_legal
  refine ⟨m, r, hm, n, ?_⟩
  rcases h with ⟨as, s', v', h1, -, h2⟩ | h | ⟨⟨op, h, h'⟩, -⟩
  · refine .inl ⟨as, s', ?_, h2⟩
    have hg : genValue Ksmall small = small := rfl
    rcases as with _ | ⟨a1, _ | ⟨a2, _ | ⟨a3, _ | ⟨a4, _ | ⟨a5, as⟩⟩⟩⟩⟩ <;> simp [smallOps, Steps] at h1
    obtain ⟨w1, h1, w2, h2, w3, h3, h4⟩ := h1
    simp only [Step] at h1 h2 h3 h4
    have e : w3 0 = small := by rw [h3.2, h2.2, h1.2, hg]; simp
    have := h4.2
    rw [e] at this
    simp [this, sgnR, small_pos]
  · exact .inr h
  · simp [smallOps] at h
    rcases h with rfl | rfl | rfl | rfl <;> simp [Op.rounds] at h'

end EAntic
