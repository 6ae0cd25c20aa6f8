import Verif.Lemmas.Accept
import Verif.Props.RefineTerm
import Verif.Props.Ends
import Verif.Props.Make

/-!
# C18, C52 and C40: descriptions of a root that are accepted

`C18_counterexample`, `C52_isolating_counterexample` and `C40_restore_counterexample` show that the
check of a ball at construction accepts balls without a root and refuses balls that contain exactly
one.  Here: it accepts every small ball in which the root is not too close to the ends
(`Ball.Inside`, `Spec/Accept.lean`), and then making a field, or restoring one from a file, succeeds.
-/

namespace EAntic
open Polynomial

/-- C18, which balls are accepted: for every root of a polynomial of degree at least two there are a
radius `δ`, a constant `c` and a precision `P`, such that `fmpq_poly_check_unique_real_root` accepts,
at every precision `p` from `P` on, every ball of radius at most `δ` in which the root has a distance
of at least `c 4^(-p)` from the ends.  No root isolation takes place (any `F` and `n`). -/
theorem C18_accepts {K : Nf} (hK : K.Ok) (h3 : 3 ≤ K.pol.length) {α : ℝ} (hα : K.IsRoot α)
    {A : ArbOps} (hA : A.Tight) :
    ∃ δ : ℝ, 0 < δ ∧ ∃ (c : ℝ) (P : ℤ), 0 < c ∧ ∀ (b : Ball) (p : ℤ), P ≤ p →
      b.Inside α δ (c * 2 ^ (-(2 * p))) →
        ∀ (F : Scale2) (n : ℕ), checkUnique A F n K.pol b p = .ok true :=
  checkUnique_accepts hA h3 hα (deriv_ne_zero hK hα)

theorem Ball.Inside.mem {b : Ball} {α δ g : ℝ} (h : b.Inside α δ g) (hg : 0 ≤ g) :
    ∃ m r : ℚ, b = .fin m r ∧ α ∈ Ball.fin m r ∧ (r : ℝ) ≤ δ := by
  obtain ⟨m, r, e, h1, h2, h3⟩ := h
  exact ⟨m, r, e, Ball.mem_fin.2 ⟨by linarith, by linarith⟩, h1⟩

/-- more rounds do not change the outcome of a refinement -/
theorem refineEmbedding_more {A : ArbOps} {nd : Bool} {n k : ℕ} {f : Field} {p : ℤ}
    (h : refineEmbedding A nd n f p ≠ .running) (hk : n ≤ k) :
    refineEmbedding A nd k f p = refineEmbedding A nd n f p := by
  unfold refineEmbedding at h ⊢
  split_ifs at h ⊢
  · rfl
  · cases hcp : compPrec f.nf.pol f.emb (max f.prec 64) with
    | none => rfl
    | some cp =>
      simp only [hcp] at h ⊢
      rw [loop_mono n k _ hk (by intro h0; rw [h0] at h; exact h rfl)]

/-- `renf_init` on such a ball -/
theorem renfInit_accepts {K : Nf} (hK : K.Ok) (h3 : 3 ≤ K.pol.length) {α : ℝ} (hα : K.IsRoot α)
    (hs : K.Sane α) {A : ArbOps} (hA : A.Tight) :
    ∃ δ : ℝ, 0 < δ ∧ ∃ (c : ℝ) (P : ℤ), 0 < c ∧ 2 ≤ P ∧ ∀ ε ≤ δ, ∀ (b : Ball) (p : ℤ), P ≤ p →
      b.Inside α ε (c * 2 ^ (-(2 * p))) → ∀ (F : Scale2) (n₁ : ℕ) (nd : Bool),
        checkUnique A F n₁ K.pol b p = .ok true ∧ ∃ n,
          (∃ f, (∀ n₂, n ≤ n₂ → renfInit A F nd n₁ n₂ K.pol b p = .ok f) ∧ f.Near K α ε ∧ f.prec = p ∧
            f.immutable = false ∧ p ≤ f.emb.relAccuracyBits) ∨
          (∀ n₂, n ≤ n₂ → renfInit A F nd n₁ n₂ K.pol b p = .ub) ∧
            Overflows A ⟨K, b, p, false⟩ p := by
  obtain ⟨δ₁, hδ₁, c, P, hc, H₁⟩ := C18_accepts hK h3 hα hA
  obtain ⟨δ₂, hδ₂, -, H₂⟩ := C55_refine_returns_partial hK h3 hα hs hA
  obtain ⟨δ₃, hδ₃, H₃⟩ := near_keeps_le hK h3 hα hA
  refine ⟨min δ₁ (min δ₂ δ₃), lt_min hδ₁ (lt_min hδ₂ hδ₃), c, max P 2, hc, le_max_right _ _,
    fun ε hε b p hp hb F n₁ nd => ?_⟩
  have hg : 0 ≤ c * 2 ^ (-(2 * p)) := by positivity
  have hb' : b.Inside α δ₁ (c * 2 ^ (-(2 * p))) := by
    obtain ⟨m, r, e, h1, h2⟩ := hb
    exact ⟨m, r, e, h1.trans (hε.trans (min_le_left _ _)), h2⟩
  have hacc := H₁ b p ((le_max_left _ _).trans hp) hb' F n₁
  obtain ⟨m, r, e, hm, hr⟩ := hb.mem hg
  have hN : (⟨K, b, p, false⟩ : Field).Near K α ε := ⟨rfl, m, r, e, hm, hr⟩
  have hN₂ : (⟨K, b, p, false⟩ : Field).Near K α δ₂ :=
    ⟨rfl, m, r, e, hm, hr.trans (hε.trans ((min_le_right _ _).trans (min_le_left _ _)))⟩
  obtain ⟨n, hn⟩ := H₂ _ hN₂ nd (by simp) p
  refine ⟨hacc, n, ?_⟩
  have hlin : K.isLinear = false := by
    simp [Nf.isLinear]; omega
  have he : ∀ n₂, renfInit A F nd n₁ n₂ K.pol b p = refineEmbedding A nd n₂ ⟨K, b, p, false⟩ p := by
    intro n₂
    unfold renfInit
    rw [hacc]
    show (if (⟨⟨K.pol⟩, b, p, false⟩ : Field).nf.isLinear = true then _ else _) = _
    rw [show (⟨⟨K.pol⟩, b, p, false⟩ : Field).nf = K from rfl, hlin]
    rfl
  simp only [he]
  rcases hn n le_rfl with ⟨f, h1, -, h2⟩ | ⟨h1, h2⟩
  · obtain ⟨g1, -, g3⟩ := H₃ _ (hε.trans ((min_le_right _ _).trans (min_le_right _ _))) nd n p hN h1
    refine .inl ⟨f, fun n₂ h => ?_, g1, by rw [g3], by rw [g3], h2⟩
    rw [refineEmbedding_more (by rw [h1]; simp) h, h1]
  · refine .inr ⟨fun n₂ h => ?_, h2⟩
    rw [refineEmbedding_more (by rw [h1]; simp) h, h1]

/-- C52, making a field succeeds: for every irreducible polynomial `P` of degree at least two (with
numerators `K.pol` over `d`) and every real root `α` there are a radius `δ`, a constant `c` and a
precision `p₀` such that, for every text of `P`, every variable name, every precision from `p₀` on and
every text of a ball of radius `ε` at most `δ` with `α` inside, at least `c 4^(-prec)` from the ends,
`make` returns the field of `P` embedded at `α`, with an enclosure of the requested accuracy, not wider
than `ε`.  The only
other outcome is overflow of the working precision (see C55). -/
theorem C52_make_succeeds_partial {K : Nf} {d : ℤ} (hc : (⟨K.pol, d⟩ : QPoly).Canonical)
    (hi : Irreducible (⟨K.pol, d⟩ : QPoly).toPolyQ) (h3 : 3 ≤ K.pol.length) {α : ℝ}
    (hα : K.IsRoot α) (hs : K.Sane α) {A : ArbOps} (hA : A.Tight) :
    ∃ δ : ℝ, 0 < δ ∧ ∃ (c : ℝ) (p₀ : ℤ), 0 < c ∧ ∀ (E : MakeEnv), E.A = A →
      ∀ ε ≤ δ, ∀ (s gen emb : List Char) (prec : ℤ) (e : Ball), p₀ ≤ prec → Text.IsVarname gen →
        Text.Reads E.R gen s (⟨K.pol, d⟩ : QPoly).toPolyQ → E.B.read emb prec = some e →
        e.Inside α ε (c * 2 ^ (-(2 * prec))) →
          ∃ n,
            (∃ f, (∀ n₂ i, n ≤ n₂ → 1 ≤ i →
                makeStr { E with n₂ := n₂ } i s gen emb prec = .ok ⟨f, d, gen⟩) ∧
              f.Near K α ε ∧ f.prec = prec ∧ f.immutable = false ∧ prec ≤ f.emb.relAccuracyBits) ∨
            (∀ n₂ i, n ≤ n₂ → 1 ≤ i → makeStr { E with n₂ := n₂ } i s gen emb prec = .ub) ∧
              Overflows A ⟨K, e, prec, false⟩ prec := by
  have hK : K.Ok := ok_of_irreducible hc hi
  obtain ⟨δ, hδ, c, P, hc0, hP, H⟩ := renfInit_accepts hK h3 hα hs hA
  refine ⟨δ, hδ, c, P, hc0, fun E hE ε hε s gen emb prec e hp hv hr he hin => ?_⟩
  obtain ⟨hacc, n, hn⟩ := H ε hε e prec hp hin E.F E.n₁ E.nd
  obtain ⟨l, hl, hl'⟩ := (Text.setStrPretty_iff E.R s gen _).2 ⟨hv, hr⟩
  obtain ⟨k1, k2⟩ := Text.canonical_spec l
  have hcan : Text.canonical l = (K.pol, d) := by
    have := QPoly.canonical_unique k1 hc (k2.trans hl')
    simp only [QPoly.mk.injEq] at this
    exact Prod.ext this.1 this.2
  have hg : guardPrec prec = true := by simp [guardPrec]; omega
  have hstep : ∀ (n₂ : ℕ) (x : Res Field), renfInit A E.F E.nd E.n₁ n₂ K.pol e prec = x →
      makeStep { E with n₂ := n₂ } s gen (fixedEmb emb prec) prec =
        x.bind fun f => .ok (.inr ⟨f, d, gen⟩) := by
    intro n₂ x hx
    unfold makeStep
    simp only [hl, hcan, fixedEmb, ne_eq, not_true_eq_false, if_false, Res.bind, hg, he, hE, hacc,
      Bool.true_eq_false, hx]
  refine ⟨n, ?_⟩
  rcases hn with ⟨f, h1, h2⟩ | ⟨h1, h2⟩
  · refine .inl ⟨f, fun n₂ i h hi => ?_, h2⟩
    obtain ⟨i, rfl⟩ := Nat.exists_eq_add_of_le' hi
    unfold makeStr makeFun
    rw [loop, hstep n₂ _ (h1 n₂ h)]
    rfl
  · refine .inr ⟨fun n₂ i h hi => ?_, h2⟩
    obtain ⟨i, rfl⟩ := Nat.exists_eq_add_of_le' hi
    unfold makeStr makeFun
    rw [loop, hstep n₂ _ (h1 n₂ h)]
    rfl

/-- C52, making a field with a callback: if the texts given by the callback are balls that shrink to
the root and have it inside, then after finitely many doublings of the precision a ball is accepted.
(If the first precision is large enough then the first ball is, `C52_make_succeeds_partial`.) -/
theorem C52_callback_accepted {K : Nf} (hK : K.Ok) (h3 : 3 ≤ K.pol.length) {α : ℝ} (hα : K.IsRoot α)
    {A : ArbOps} (hA : A.Tight) (ball : ℤ → Ball) (w : ℤ → ℝ) (hw : ∀ ε > 0, ∃ P, ∀ p, P ≤ p → w p ≤ ε)
    (hin : ∀ c : ℝ, ∃ P, ∀ p, P ≤ p → (ball p).Inside α (w p) (c * 2 ^ (-(2 * p)))) (prec : ℤ)
    (hp : 2 ≤ prec) (F : Scale2) (n : ℕ) :
    ∃ i : ℕ, ∀ j, i ≤ j → checkUnique A F n K.pol (ball (prec * 2 ^ j)) (prec * 2 ^ j) = .ok true := by
  obtain ⟨δ, hδ, c, P, -, H⟩ := C18_accepts hK h3 hα hA
  obtain ⟨P₁, H₁⟩ := hw δ hδ
  obtain ⟨P₂, H₂⟩ := hin c
  refine ⟨(max P (max P₁ P₂)).toNat, fun j hj => ?_⟩
  have hbig : max P (max P₁ P₂) ≤ prec * 2 ^ j := by
    have h1 : (j : ℤ) < 2 ^ j := by exact_mod_cast Nat.lt_two_pow_self
    have h2 : (0 : ℤ) < 2 ^ j := by positivity
    have h3 : max P (max P₁ P₂) ≤ j := by omega
    nlinarith
  obtain ⟨m, r, e, g1, g2⟩ := H₂ (prec * 2 ^ j) (by omega)
  exact H _ _ (by omega) ⟨m, r, e, g1.trans (H₁ _ (by omega)), g2⟩ F n

/-- C40, one field, without assumptions on the code: a field of high precision whose root is inside
the ball read back from the file is restored by `make` from `construction()`: same polynomial, name
and precision, embedded at the same root, and equal to the old one.  (`C40_text_accuracy` bounds the
radius of the ball read back; the old enclosure is contained in it.) -/
theorem C40_restore_high_precision_partial {K : Nf} {d : ℤ} (hc : (⟨K.pol, d⟩ : QPoly).Canonical)
    (hi : Irreducible (⟨K.pol, d⟩ : QPoly).toPolyQ) (h3 : 3 ≤ K.pol.length)
    (hlen : K.pol.length ≤ Text.longMax) {α : ℝ} (hα : K.IsRoot α) (hs : K.Sane α) {A : ArbOps}
    (hA : A.Tight) :
    ∃ δ : ℝ, 0 < δ ∧ ∃ (c : ℝ) (p₀ : ℤ), 0 < c ∧ ∀ (E : MakeEnv), E.A = A → Text.RatReader E.R →
      ∀ (k : NamedField) (e : Ball), k.field.nf = K → k.den = d → α ∈ k.field.emb →
        Text.IsVarname k.name → p₀ ≤ k.field.prec →
        E.B.read (constructionOf E.B k).emb k.field.prec = some e →
        e.Inside α δ (c * 2 ^ (-(2 * k.field.prec))) →
          ∃ n,
            (∃ k', (∀ n₂ i, n ≤ n₂ → 1 ≤ i → makeStr { E with n₂ := n₂ } i
                (constructionOf E.B k).minpoly (constructionOf E.B k).name (constructionOf E.B k).emb
                (constructionOf E.B k).prec = .ok k') ∧
              k'.field.nf = K ∧ k'.den = d ∧ k'.name = k.name ∧ k'.field.prec = k.field.prec ∧
              α ∈ k'.field.emb ∧ renfEqual k.field k.den k'.field k'.den = true) ∨
            (∀ n₂ i, n ≤ n₂ → 1 ≤ i → makeStr { E with n₂ := n₂ } i
                (constructionOf E.B k).minpoly (constructionOf E.B k).name (constructionOf E.B k).emb
                (constructionOf E.B k).prec = .ub) ∧
              Overflows A ⟨K, e, k.field.prec, false⟩ k.field.prec := by
  obtain ⟨δ, hδ, c, P, hc0, H⟩ := C52_make_succeeds_partial hc hi h3 hα hs hA
  refine ⟨δ, hδ, c, P, hc0, fun E hE hR k e hk hd hα hv hp he hin => ?_⟩
  have hread : Text.Reads E.R k.name (constructionOf E.B k).minpoly (⟨K.pol, d⟩ : QPoly).toPolyQ := by
    show Text.Reads E.R k.name (Text.pretty k.name k.field.nf.pol k.den) _
    rw [hk, hd]
    exact Text.pretty_reads hR k.name K.pol d hlen
  obtain ⟨n, hn⟩ := H E hE δ le_rfl (constructionOf E.B k).minpoly k.name (constructionOf E.B k).emb
    k.field.prec e hp hv hread he hin
  refine ⟨n, ?_⟩
  rcases hn with ⟨f, h1, h2, h4, -, -⟩ | h1
  · obtain ⟨g1, m, r, g2, g3, -⟩ := h2
    refine .inl ⟨_, h1, g1, rfl, rfl, h4, ?_, ?_⟩
    · show α ∈ f.emb
      rw [g2]; exact g3
    · refine C19_same_root (by rw [hk]; exact congrArg Nf.pol g1.symm) hd hα ?_
      show α ∈ f.emb
      rw [g2]; exact g3
  · exact .inr h1

/-- C20, the construction of an `n`-th root field succeeds: for every positive `d` and `n ≥ 2` with
`x^n - d` irreducible there are a radius, a constant and a precision from which on
`renf_init_nth_root_fmpq` returns the field of `x^n - d` embedded at the positive root `α`, if Arb's
enclosure of `α` is that small and has `α` inside, at least `c 4^(-prec)` from the ends. -/
theorem C20_nth_root_succeeds_partial {A : ArbOps} (hA : A.Tight) {d : ℚ} {n : ℕ} (hn : 2 ≤ n)
    (hK : (⟨nthRootPol d n⟩ : Nf).Ok) {α : ℝ} (hα : 0 < α) (hd : α ^ n = d)
    (hs : (⟨nthRootPol d n⟩ : Nf).Sane α) :
    ∃ δ : ℝ, 0 < δ ∧ ∃ (c : ℝ) (P : ℤ), 0 < c ∧ ∀ prec, P ≤ prec →
      (A.rootUi (A.setFmpq d prec) n prec).Inside α δ (c * 2 ^ (-(2 * prec))) →
      ∀ (F : Scale2) (nd : Bool) (n₁ : ℕ), ∃ k,
        (∃ f, (∀ n₂, k ≤ n₂ → renfInitNthRoot A F nd n₁ n₂ d n prec = .ok f) ∧
          f.Near ⟨nthRootPol d n⟩ α δ ∧ f.prec = prec ∧ prec ≤ f.emb.relAccuracyBits) ∨
        (∀ n₂, k ≤ n₂ → renfInitNthRoot A F nd n₁ n₂ d n prec = .ub) ∧
          Overflows A ⟨⟨nthRootPol d n⟩, A.rootUi (A.setFmpq d prec) n prec, prec, false⟩ prec := by
  have hr := (nthRootPol_root (d := d) (n := n) (by omega) α).2 hd
  have h3 : 3 ≤ (⟨nthRootPol d n⟩ : Nf).pol.length := by simp [nthRootPol]; omega
  have hd0 : 0 < d := by
    have : (0 : ℝ) < d := hd ▸ pow_pos hα n
    exact_mod_cast this
  obtain ⟨δ, hδ, c, P, hc, hP, H⟩ := renfInit_accepts hK h3 hr hs hA
  refine ⟨δ, hδ, c, P, hc, fun prec hp hin F nd n₁ => ?_⟩
  obtain ⟨-, k, h⟩ := H δ le_rfl _ prec hp hin F n₁ nd
  have hnum : ¬ d.num < 0 := by have := Rat.num_pos.2 hd0; omega
  have hg : guardPrec prec = true := by simp [guardPrec]; omega
  have he : ∀ n₂, renfInitNthRoot A F nd n₁ n₂ d n prec =
      renfInit A F nd n₁ n₂ (nthRootPol d n) (A.rootUi (A.setFmpq d prec) n prec) prec := by
    intro n₂
    unfold renfInitNthRoot
    rw [if_neg hnum, if_neg (by rw [hg]; simp; omega)]
  simp only [he]
  refine ⟨k, ?_⟩
  rcases h with ⟨f, h1, h2, h4, -, h5⟩ | h
  · exact .inl ⟨f, h1, h2, h4, h5⟩
  · exact .inr h

/-- C44 from the beginning: the field is made from texts, and then calls are made.  For every
irreducible polynomial of degree at least two and every real root there are a radius, a constant and a
precision such that for every text of the polynomial and of a ball with the root inside (as in
`C52_make_succeeds_partial`) and every sequence of calls within the preconditions: `make` returns, and
the calls come to an end with the answers of exact arithmetic, or one of the documented overflows
happens. -/
theorem C44_made_field_partial {K : Nf} {d : ℤ} (hc : (⟨K.pol, d⟩ : QPoly).Canonical)
    (hi : Irreducible (⟨K.pol, d⟩ : QPoly).toPolyQ) (h3 : 3 ≤ K.pol.length) {α : ℝ}
    (hα : K.IsRoot α) (hs : K.Sane α) {A : ArbOps} (hT : A.Tight) (hC : A.Convergent) :
    ∃ δ : ℝ, 0 < δ ∧ ∃ (c : ℝ) (p₀ : ℤ), 0 < c ∧ ∀ (E : MakeEnv), E.A = A →
      ∀ (s gen emb : List Char) (prec : ℤ) (e : Ball), p₀ ≤ prec → Text.IsVarname gen →
        Text.Reads E.R gen s (⟨K.pol, d⟩ : QPoly).toPolyQ → E.B.read emb prec = some e →
        e.Inside α δ (c * 2 ^ (-(2 * prec))) →
      ∀ (N : NfOps K) (p : ℤ), 2 ≤ p → p ≤ prec → p ≤ 2 ^ 63 →
      ∀ ops : List Op, LegalProgram K α p (fun _ => 0) ops →
      ∃ n, ∀ k, n ≤ k →
        (makeStr { E with n₂ := k } 1 s gen emb prec = .ub ∧ Overflows A ⟨K, e, prec, false⟩ prec) ∨
        ∃ f, makeStr { E with n₂ := k } 1 s gen emb prec = .ok ⟨f, d, gen⟩ ∧
          ((∃ as s' v', Steps K α (fun _ => 0) ops as v' ∧
              (∀ a, (s'.heap (.user a)).elem.val α = v' a ∧ v' a ∈ (s'.heap (.user a)).emb) ∧
              (⟨A, N, refineEmbedding A E.nd k, k⟩ : Env K).run ops (freshMem f) = .ok (as, s')) ∨
            (⟨A, N, refineAt A E.nd k, k⟩ : Env K).run ops (freshMem f) = .throw "overflow" ∨
            (∃ op ∈ ops, op.rounds = true) ∧
              (⟨A, N, refineEmbedding A E.nd k, k⟩ : Env K).run ops (freshMem f) = .abort) := by
  have hK : K.Ok := ok_of_irreducible hc hi
  obtain ⟨δ₁, hδ₁, c, P, hc0, H₁⟩ := C52_make_succeeds_partial hc hi h3 hα hs hT
  obtain ⟨δ₂, hδ₂, H₂⟩ := C44_programs_end_partial hK h3 hα hs hT hC
  refine ⟨min δ₁ δ₂, lt_min hδ₁ hδ₂, c, max P 2, hc0,
    fun E hE s gen emb prec e hp hv hr he hin N p hp2 hpp hp' ops hl => ?_⟩
  obtain ⟨n₁, hn₁⟩ := H₁ E hE _ (min_le_left _ _) s gen emb prec e ((le_max_left _ _).trans hp) hv hr
    he hin
  rcases hn₁ with ⟨f, h1, ⟨g1, m, r, g2, g3, g4⟩, h5, h6, -⟩ | ⟨h1, h2⟩
  · have hf : f.Near K α δ₂ := ⟨g1, m, r, g2, g3, g4.trans (min_le_right _ _)⟩
    obtain ⟨n₂, hn₂⟩ := H₂ E.nd N f hf (by simp [h6]) p hp2 (by rw [h5]; exact hpp) hp' ops hl
    refine ⟨max n₁ n₂, fun k hk => .inr ⟨f, h1 k 1 ((le_max_left _ _).trans hk) le_rfl, ?_⟩⟩
    have hk2 := (le_max_right _ _).trans hk
    rcases hn₂ with ⟨as, s', v', a1, a2, a3⟩ | a | ⟨a1, a2⟩
    · exact .inl ⟨as, s', v', a1, a2, a3 k hk2⟩
    · exact .inr (.inl (a k hk2))
    · exact .inr (.inr ⟨a1, a2 k hk2⟩)
  · exact ⟨n₁, fun k hk => .inl ⟨h1 k 1 hk le_rfl, h2⟩⟩

/-! ### The theorems apply -/

/-- there are balls with the root inside, for all constants, from some precision on -/
theorem exists_inside (α δ c : ℝ) (hδ : 0 < δ) :
    ∃ P : ℤ, 2 ≤ P ∧ ∀ p, P ≤ p → ∃ b : Ball, b.Inside α δ (c * 2 ^ (-(2 * p))) := by
  obtain ⟨r, r0, r1⟩ := exists_rat_btwn hδ
  obtain ⟨m, m0, m1⟩ := exists_rat_btwn (show α - r / 2 < α by linarith)
  obtain ⟨P, hP, H⟩ := ulp_small (r / (4 * (|c| + 1))) (by positivity)
  refine ⟨P, hP, fun p hp => ⟨.fin m r, m, r, rfl, r1.le, ?_⟩⟩
  have h1 := H p hp
  rw [le_div_iff₀ (by positivity)] at h1
  have h2 : (2 : ℝ) ^ (-(2 * p)) ≤ 2 ^ (-p) := zpow_le_zpow_right₀ (by norm_num) (by omega)
  have h3 : (0 : ℝ) < 2 ^ (-(2 * p)) := by positivity
  have h4 : c * 2 ^ (-(2 * p)) ≤ r / 4 := by
    have := mul_le_mul_of_nonneg_right (le_abs_self c) h3.le
    nlinarith [abs_nonneg c]
  constructor <;> linarith

theorem K2_canonical : (⟨K2.pol, 1⟩ : QPoly).Canonical := by
  refine ⟨by decide, fun g h _ => isUnit_of_dvd_one h, fun h => by simp [K2]⟩

theorem K2_irreducible : Irreducible (⟨K2.pol, 1⟩ : QPoly).toPolyQ := by
  have := K2_ok.irr
  simpa [QPoly.toPolyQ] using this

/-- `√2`: balls that are accepted at all high precisions -/
example : ∃ P : ℤ, ∀ p, P ≤ p → ∃ b : Ball, √2 ∈ b ∧
    ∀ (F : Scale2) (n : ℕ), checkUnique fpArb F n K2.pol b p = .ok true := by
  obtain ⟨δ, hδ, c, P, hc, H⟩ := C18_accepts K2_ok (by decide) K2_root fpArb_tight
  obtain ⟨P', hP', H'⟩ := exists_inside √2 δ c hδ
  refine ⟨max P P', fun p hp => ?_⟩
  obtain ⟨b, hb⟩ := H' p ((le_max_right _ _).trans hp)
  obtain ⟨m, r, rfl, hm, -⟩ := hb.mem (by positivity)
  exact ⟨_, hm, H _ p ((le_max_left _ _).trans hp) hb⟩

/-- `√2`: texts from which `make` succeeds at all high precisions -/
example : ∃ (E : MakeEnv) (P : ℤ), E.A = fpArb ∧ ∀ p, P ≤ p → ∃ emb : List Char, ∃ n, ∀ n₂, n ≤ n₂ →
    (∃ f, makeStr { E with n₂ := n₂ } 2 (Text.pretty ['x'] K2.pol 1) ['x'] emb p = .ok ⟨f, 1, ['x']⟩ ∧
      √2 ∈ f.emb) ∨
    (makeStr { E with n₂ := n₂ } 2 (Text.pretty ['x'] K2.pol 1) ['x'] emb p = .ub ∧
      ∃ e, E.B.read emb p = some e ∧ Overflows fpArb ⟨K2, e, p, false⟩ p) := by
  obtain ⟨B, hB⟩ := exists_exact
  obtain ⟨δ, hδ, c, P, hc, H⟩ := C52_make_succeeds_partial K2_canonical K2_irreducible (by decide)
    K2_root K2_sane fpArb_tight
  obtain ⟨P', hP', H'⟩ := exists_inside √2 δ c hδ
  refine ⟨⟨fpArb, scale2Simple, Text.readQ, B, false, 100, 200⟩, max P P', rfl, fun p hp => ?_⟩
  obtain ⟨b, hb⟩ := H' p ((le_max_right _ _).trans hp)
  obtain ⟨n, hn⟩ := H ⟨fpArb, scale2Simple, Text.readQ, B, false, 100, 200⟩ rfl δ le_rfl
    (Text.pretty ['x'] K2.pol 1) ['x'] (B.text b 0) p b ((le_max_left _ _).trans hp)
    ⟨'x', [], rfl, by decide, by simp⟩ (Text.pretty_reads Text.readQ_ok _ _ _ (by decide)) (hB _ _ _) hb
  refine ⟨B.text b 0, n, fun n₂ h => ?_⟩
  rcases hn with ⟨f, h1, ⟨-, m, r, h2, h3, -⟩, -⟩ | ⟨h1, h2⟩
  · exact .inl ⟨f, h1 n₂ 2 h (by norm_num), by rw [h2]; exact h3⟩
  · exact .inr ⟨h1 n₂ 2 h (by norm_num), b, hB _ _ _, h2⟩

/-- the hypotheses of `C40_restore_high_precision_partial` are met: a field that can be restored -/
example : ∃ (E : MakeEnv) (k : NamedField), E.A = fpArb ∧ √2 ∈ k.field.emb ∧ k.field.nf = K2 ∧
    ∃ n, ∀ n₂, n ≤ n₂ →
      (∃ k', makeStr { E with n₂ := n₂ } 2 (constructionOf E.B k).minpoly (constructionOf E.B k).name
          (constructionOf E.B k).emb (constructionOf E.B k).prec = .ok k' ∧
        renfEqual k.field k.den k'.field k'.den = true) ∨
      (makeStr { E with n₂ := n₂ } 2 (constructionOf E.B k).minpoly (constructionOf E.B k).name
          (constructionOf E.B k).emb (constructionOf E.B k).prec = .ub ∧
        Overflows fpArb k.field k.field.prec) := by
  obtain ⟨B, hB⟩ := exists_exact
  obtain ⟨δ, hδ, c, P, hc, H⟩ := C40_restore_high_precision_partial K2_canonical K2_irreducible
    (by decide) (by decide) K2_root K2_sane fpArb_tight
  obtain ⟨P', hP', H'⟩ := exists_inside √2 δ c hδ
  obtain ⟨b, hb⟩ := H' (max P P') (le_max_right _ _)
  obtain ⟨m, r, rfl, hm, -⟩ := hb.mem (by positivity)
  obtain ⟨n, hn⟩ := H ⟨fpArb, scale2Simple, Text.readQ, B, false, 100, 200⟩ rfl Text.readQ_ok
    ⟨⟨K2, .fin m r, max P P', false⟩, 1, ['x']⟩ (.fin m r) rfl rfl hm
    ⟨'x', [], rfl, by decide, by simp⟩ (le_max_left _ _) (hB _ _ _) hb
  refine ⟨⟨fpArb, scale2Simple, Text.readQ, B, false, 100, 200⟩,
    ⟨⟨K2, .fin m r, max P P', false⟩, 1, ['x']⟩, rfl, hm, rfl, n, fun n₂ h => ?_⟩
  rcases hn with ⟨k', h1, -, -, -, -, -, h2⟩ | ⟨h1, h2⟩
  · exact .inl ⟨k', h1 n₂ 2 h (by norm_num), h2⟩
  · exact .inr ⟨h1 n₂ 2 h (by norm_num), h2⟩

theorem K3_canonical : (⟨K3.pol, 1⟩ : QPoly).Canonical := by
  refine ⟨by decide, fun g h _ => isUnit_of_dvd_one h, fun h => by simp [K3]⟩

theorem K3_irreducible : Irreducible (⟨K3.pol, 1⟩ : QPoly).toPolyQ := by
  have := K3_ok.irr
  simpa [QPoly.toPolyQ] using this

/-- the hypotheses of `C44_made_field_partial` are met, by `∛2` and the program `prog3`: texts and a
precision from which the field is made and the program comes to an end with the exact answers (or
overflows) -/
example : ∃ (E : MakeEnv) (s gen emb : List Char) (prec : ℤ) (e : Ball), E.B.read emb prec = some e ∧
    cbrt2 ∈ e ∧ ∃ n, ∀ k, n ≤ k →
      (makeStr { E with n₂ := k } 1 s gen emb prec = .ub ∧ Overflows fpArb ⟨K3, e, prec, false⟩ prec) ∨
      ∃ f, makeStr { E with n₂ := k } 1 s gen emb prec = .ok ⟨f, 1, gen⟩ ∧
        ((∃ as s' v', Steps K3 cbrt2 (fun _ => 0) prog3 as v' ∧
          (⟨fpArb, cubOps, refineEmbedding fpArb E.nd k, k⟩ : Env K3).run prog3 (freshMem f) =
            .ok (as, s')) ∨
        (⟨fpArb, cubOps, refineAt fpArb E.nd k, k⟩ : Env K3).run prog3 (freshMem f) =
          .throw "overflow" ∨
        (⟨fpArb, cubOps, refineEmbedding fpArb E.nd k, k⟩ : Env K3).run prog3 (freshMem f) =
          .abort) := by
  obtain ⟨B, hB⟩ := exists_exact
  obtain ⟨δ, hδ, c, P, hc, H⟩ := C44_made_field_partial K3_canonical K3_irreducible (by decide)
    K3_root K3_sane fpArb_tight fpArb_convergent
  obtain ⟨P', hP', H'⟩ := exists_inside cbrt2 δ c hδ
  obtain ⟨b, hb⟩ := H' (max P P') (le_max_right _ _)
  obtain ⟨m, r, rfl, hm, -⟩ := hb.mem (by positivity)
  obtain ⟨n, hn⟩ := H ⟨fpArb, scale2Simple, Text.readQ, B, false, 100, 200⟩ rfl
    (Text.pretty ['x'] K3.pol 1) ['x'] (B.text (.fin m r) 0) (max P P') (.fin m r) (le_max_left _ _)
    ⟨'x', [], rfl, by decide, by simp⟩ (Text.pretty_reads Text.readQ_ok _ _ _ (by decide)) (hB _ _ _) hb
    cubOps 2 le_rfl (hP'.trans (le_max_right _ _)) (by norm_num) prog3 (prog3_legal le_rfl)
  refine ⟨⟨fpArb, scale2Simple, Text.readQ, B, false, 100, 200⟩, Text.pretty ['x'] K3.pol 1, ['x'],
    B.text (.fin m r) 0, max P P', .fin m r, hB _ _ _, hm, n, fun k hk => ?_⟩
  rcases hn k hk with h | ⟨f, h1, ⟨as, s', v', h2, -, h3⟩ | h | ⟨-, h⟩⟩
  · exact .inl h
  · exact .inr ⟨f, h1, .inl ⟨as, s', v', h2, h3⟩⟩
  · exact .inr ⟨f, h1, .inr (.inl h)⟩
  · exact .inr ⟨f, h1, .inr (.inr h)⟩

/-- a ball enlarged by `2^(-p)` -/
def Ball.enlarge (p : ℤ) : Ball → Ball
  | .fin m r => .fin m (r + 2 ^ (-p))
  | .whole => .whole

theorem Ball.mem_enlarge {b : Ball} {x : ℝ} {p : ℤ} (h : x ∈ b) : x ∈ b.enlarge p := by
  cases b with
  | fin m r =>
    have h2 : (0 : ℝ) < 2 ^ (-p) := by positivity
    rw [Ball.mem_fin] at h
    rw [Ball.enlarge, Ball.mem_fin]
    push_cast
    constructor <;> linarith [h.1, h.2]
  | whole => exact h

/-- floating point arithmetic with generous enclosures of roots -/
def rootArb : ArbOps :=
  { fpArb with
    rootUi := fun a n p => (fpArb.rootUi a n p).enlarge p
    rootUi_mem := fun hp hn hx h => Ball.mem_enlarge (fpArb.rootUi_mem hp hn hx h) }

theorem rootArb_tight : rootArb.Tight :=
  ⟨fpArb_tight.mul, fpArb_tight.addFmpz, fpArb_tight.sub, fpArb_tight.div, fpArb_tight.setInterval,
    fpArb_tight.inter⟩

/-- the hypotheses of `C20_nth_root_succeeds_partial` are met at all high precisions, by `√2` -/
example : ∃ P : ℤ, ∀ prec, P ≤ prec → ∀ (F : Scale2) (nd : Bool) (n₁ : ℕ), ∃ k,
    (∃ f, (∀ n₂, k ≤ n₂ → renfInitNthRoot rootArb F nd n₁ n₂ 2 2 prec = .ok f) ∧ √2 ∈ f.emb) ∨
    (∀ n₂, k ≤ n₂ → renfInitNthRoot rootArb F nd n₁ n₂ 2 2 prec = .ub) ∧ ∃ b : Ball,
      Overflows rootArb ⟨K2, b, prec, false⟩ prec := by
  have e : nthRootPol 2 2 = K2.pol := by decide +kernel
  have e' : (⟨nthRootPol 2 2⟩ : Nf) = K2 := by rw [e]
  have hpos : (0 : ℝ) < √2 := by positivity
  obtain ⟨δ, hδ, c, P, hc, H⟩ := C20_nth_root_succeeds_partial rootArb_tight (d := 2) (n := 2) le_rfl
    (by rw [e']; exact K2_ok) hpos (by norm_num) (by rw [e']; exact K2_sane)
  obtain ⟨P₁, H₁⟩ := fpArb_rootConvergent 2 2 (δ / 2) (by norm_num) (by norm_num) (by positivity)
  obtain ⟨P₂, hP₂, H₂⟩ := ulp_small (min (δ / 2) (1 / (c + 1))) (lt_min (by positivity) (by positivity))
  refine ⟨max P (max P₁ P₂), fun prec hp F nd n₁ => ?_⟩
  obtain ⟨m, r, hb, hr⟩ := H₁ prec (by omega)
  have ht := H₂ prec (by omega)
  have t0 : (0 : ℝ) < 2 ^ (-prec) := by positivity
  have t1 := ht.trans (min_le_left _ _)
  have t2 := ht.trans (min_le_right _ _)
  rw [le_div_iff₀ (by positivity)] at t2
  have hm : √2 ∈ Ball.fin m r := by
    rw [← hb]
    exact fpArb.rootUi_mem (by omega) (by norm_num) hpos.le
      (by rw [show (√2 : ℝ) ^ 2 = ((2 : ℚ) : ℝ) by norm_num]; exact fpArb.setFmpq_mem (by omega))
  rw [Ball.mem_fin] at hm
  have t3 : (2 : ℝ) ^ (-(2 * prec)) = 2 ^ (-prec) * 2 ^ (-prec) := by
    rw [← zpow_add₀ (by norm_num)]; congr 1; ring
  have t4 : c * 2 ^ (-(2 * prec)) ≤ 2 ^ (-prec) := by rw [t3]; nlinarith
  have hroot : rootArb.rootUi (rootArb.setFmpq 2 prec) 2 prec = .fin m (r + 2 ^ (-prec)) := by
    show (fpArb.rootUi (fpArb.setFmpq 2 prec) 2 prec).enlarge prec = _
    rw [hb]; rfl
  obtain ⟨k, h⟩ := H prec (by omega) (by
    rw [hroot]
    refine ⟨m, r + 2 ^ (-prec), rfl, ?_, ?_, ?_⟩ <;> push_cast <;> linarith [hm.1, hm.2]) F nd n₁
  refine ⟨k, ?_⟩
  rcases h with ⟨f, h1, ⟨-, m', r', h2, h3, -⟩, -⟩ | ⟨h1, h2⟩
  · exact .inl ⟨f, h1, by rw [h2]; exact h3⟩
  · exact .inr ⟨h1, _, by rw [← e']; exact h2⟩

/-- the hypotheses of `C52_callback_accepted` are met: balls of radius `2^(-p)` around `√2` -/
example : ∃ (ball : ℤ → Ball) (w : ℤ → ℝ), (∀ ε > 0, ∃ P, ∀ p, P ≤ p → w p ≤ ε) ∧
    ∀ c : ℝ, ∃ P, ∀ p, P ≤ p → (ball p).Inside √2 (w p) (c * 2 ^ (-(2 * p))) := by
  have hm : ∀ p : ℤ, ∃ m : ℚ, √2 - 2 ^ (-p) / 2 < m ∧ (m : ℝ) < √2 := fun p =>
    exists_rat_btwn (by have : (0 : ℝ) < 2 ^ (-p) := by positivity
                        linarith)
  choose m h1 h2 using hm
  refine ⟨fun p => .fin (m p) (2 ^ (-p)), fun p => 2 ^ (-p), fun ε hε => ?_, fun c => ?_⟩
  · obtain ⟨P, -, H⟩ := ulp_small ε hε
    exact ⟨P, H⟩
  · obtain ⟨P, -, H⟩ := ulp_small (1 / (4 * (|c| + 1))) (by positivity)
    refine ⟨P, fun p hp => ⟨m p, 2 ^ (-p), rfl, by push_cast; rfl, ?_⟩⟩
    have g1 := H p hp
    rw [le_div_iff₀ (by positivity)] at g1
    have g2 : (0 : ℝ) < 2 ^ (-p) := by positivity
    have g3 : (2 : ℝ) ^ (-(2 * p)) = 2 ^ (-p) * 2 ^ (-p) := by
      rw [← zpow_add₀ (by norm_num)]; congr 1; ring
    have g4 : c * 2 ^ (-(2 * p)) ≤ 2 ^ (-p) / 4 := by
      rw [g3]
      have := mul_le_mul_of_nonneg_right (le_abs_self c) (mul_pos g2 g2).le
      nlinarith [abs_nonneg c]
    have a := h1 p
    have b := h2 p
    push_cast
    constructor <;> linarith

end EAntic
