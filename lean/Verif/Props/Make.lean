import Verif.Lemmas.Make
import Verif.Lemmas.Total
import Verif.Props.Text
import Verif.Props.Refinement
import Verif.Lemmas.Cluster
import Mathlib.Data.Rat.Denumerable
import Mathlib.Data.Countable.Basic

/-!
# C52: fields made from text; C40: fields restored from text

`E` holds what `make` is given by the libraries, `n` bounds its iterations.  `Reads` (what a text of
a polynomial means) is in `Spec/Text.lean`, `MadeFrom` in `Spec/Make.lean`.
-/

namespace EAntic
open Polynomial

variable {E : MakeEnv}

/-! ## C52 -/

/-- C52, soundness of `make(minpoly, gen, emb, prec)`: if it returns a field then `gen` is a variable
name, `minpoly` is a text for a polynomial `P`, `emb` is the text of a ball `e`, and the field is the
one with polynomial `P` and name `gen` made from `e`.  A root of `P` in `e` stays in the enclosure if
`P` is irreducible (which the code does not check) and the refinement cannot leave the root
(`Secure`, see C15). -/
theorem C52_make_partial (hB : E.B.Wf) {n : ℕ} {s gen emb : List Char} {prec : ℤ} {k : NamedField}
    (h : makeStr E n s gen emb prec = .ok k) :
    2 ≤ prec ∧ Text.IsVarname gen ∧ ∃ P e, Text.Reads E.R gen s P ∧ E.B.read emb prec = some e ∧
      MadeFrom P gen e prec k ∧
      ∀ α, Irreducible P → aeval α P = 0 → α ∈ e → Secure E.A k.field.nf.pol α E.n₂ e →
        α ∈ k.field.emb := by
  unfold makeStr makeFun at h
  cases n with
  | zero => simp [loop] at h
  | succ n =>
    rw [loop] at h
    cases hs : makeStep E s gen (fixedEmb emb prec) prec with
    | ok r =>
      rw [hs] at h
      cases r with
      | inr k' =>
        simp only [Res.ok.injEq] at h
        subst h
        obtain ⟨l, t, e, f, h1, h2, h3, h4, h5, rfl⟩ := makeStep_inr hs
        have ht : t = emb := by simpa [fixedEmb, eq_comm] using h2
        subst ht
        obtain ⟨hv, hr⟩ := (Text.setStrPretty_iff E.R s gen (Text.polyOf l)).1 ⟨l, h1, rfl⟩
        have hm := made (gen := gen) hB h4 h5
        refine ⟨h3, hv, Text.polyOf l, e, hr, h4, hm, fun α hi hα hαe hs => ?_⟩
        have hp : (Text.canonical l).1 = f.nf.pol := by
          obtain ⟨-, ⟨-, rfl⟩ | ⟨-, h⟩⟩ := renfInit_cases h5
          · rfl
          · obtain ⟨cp, b, -, -, rfl, -⟩ := refineEmbedding_cases h
            rfl
        exact made_keeps (t := t) h5 hi hα hαe (hp ▸ hs)
      | inl p' =>
        simp only at h
        obtain ⟨rfl, l, t, e, h1, h2, h3, h4, h5⟩ := makeStep_inl hs
        have hne : prec * 2 ≠ prec := by omega
        cases n with
        | zero => simp [loop] at h
        | succ n =>
          rw [loop] at h
          have : makeStep E s gen (fixedEmb emb prec) (prec * 2) =
              .throw "the given polynomial does not have a unique such root" := by
            unfold makeStep; rw [h1]; simp [fixedEmb, hne, Res.bind]
          rw [this] at h
          cases h
    | _ => rw [hs] at h; cases h

/-- C52: a text that is not a polynomial in `gen`, or a `gen` that is not a variable name, is rejected
with an exception. -/
theorem C52_rejects_polynomial {n : ℕ} (hn : 1 ≤ n) {s gen emb : List Char} {prec : ℤ}
    (h : ¬ (Text.IsVarname gen ∧ ∃ P, Text.Reads E.R gen s P)) :
    makeStr E n s gen emb prec = .throw "renf_class: can not read polynomial from string" := by
  obtain ⟨n, rfl⟩ := Nat.exists_eq_add_of_le' hn
  have : Text.setStrPretty E.R s gen = none := by
    cases hl : Text.setStrPretty E.R s gen with
    | none => rfl
    | some l =>
      obtain ⟨hv, hr⟩ := (Text.setStrPretty_iff E.R s gen (Text.polyOf l)).1 ⟨l, hl, rfl⟩
      exact absurd ⟨hv, _, hr⟩ h
  unfold makeStr makeFun
  rw [loop]
  unfold makeStep
  rw [this]

/-- C52: a text that is not a ball is rejected with an exception. -/
theorem C52_rejects_ball {n : ℕ} (hn : 1 ≤ n) {s gen emb : List Char} {prec : ℤ} (hp : 2 ≤ prec)
    (hv : Text.IsVarname gen) {P : ℚ[X]} (hP : Text.Reads E.R gen s P)
    (he : E.B.read emb prec = none) :
    makeStr E n s gen emb prec = .throw "renf_class: can not read ball from string" := by
  obtain ⟨n, rfl⟩ := Nat.exists_eq_add_of_le' hn
  obtain ⟨l, hl, -⟩ := (Text.setStrPretty_iff E.R s gen P).2 ⟨hv, hP⟩
  have hg : guardPrec prec = true := by simp [guardPrec]; omega
  unfold makeStr makeFun
  rw [loop]
  unfold makeStep
  rw [hl]
  simp only [fixedEmb, ne_eq, not_true_eq_false, if_false, Res.bind, hg, he]
  rfl

/-- C52: if the ball contains two roots of `P`, or if there is no root in it nor between its end points
rounded outwards, then `make` throws; it does not abort the program. -/
theorem C52_rejects_not_isolating (hB : E.B.Wf) {s gen emb : List Char} {prec : ℤ} (hp : 2 ≤ prec)
    (hp' : prec < 2 ^ 62) (hv : Text.IsVarname gen) {P : ℚ[X]} (hP : Text.Reads E.R gen s P)
    (hP0 : P ≠ 0) (hsimple : ∀ x : ℝ, aeval x P = 0 → aeval x (derivative P) ≠ 0) {e : Ball}
    (he : E.B.read emb prec = some e)
    (hbad : (∃ x ∈ e, ∃ y ∈ e, x ≠ y ∧ aeval x P = 0 ∧ aeval y P = 0) ∨
      (∀ x ∈ e, aeval x P ≠ 0) ∧ ∀ l u, e.interval prec = some (l, u) →
        ∀ x : ℝ, (l : ℝ) < x → x < u → aeval x P ≠ 0) :
    ∃ n₁, ∀ m, n₁ ≤ m → ∀ n, 2 ≤ n → makeStr { E with n₁ := m } n s gen emb prec =
      .throw "the given polynomial does not have a unique such root" := by
  obtain ⟨l, hl, rfl⟩ := (Text.setStrPretty_iff E.R s gen P).2 ⟨hv, hP⟩
  obtain ⟨hc, hq⟩ := Text.canonical_spec l
  have hd : ((Text.canonical l).2 : ℤ) ≠ 0 := hc.den_pos.ne'
  have hpol : toPoly (Text.canonical l).1 ≠ 0 := by
    intro h0
    apply hP0
    rw [toPoly_eq_map, Polynomial.map_eq_zero] at h0
    rw [← hq, QPoly.toPolyQ, h0, mul_zero]
  have hS : SimpleRoots (toPoly (Text.canonical l).1) Set.univ := by
    intro x _ hx h0
    have h1 := (root_iff hd x).2 hx
    rw [hq] at h1
    apply hsimple x h1
    rw [← hq, QPoly.toPolyQ, derivative_C_mul, map_mul, mul_eq_zero]
    right
    rw [toPoly_eq_map, derivative_map, eval_map_algebraMap] at h0
    exact h0
  obtain ⟨n₁, hn₁⟩ := C18_terminates E.A E.F (Text.canonical l).1 e prec hp hpol hS
  refine ⟨n₁, fun m hm n hn => ?_⟩
  obtain ⟨b, hb⟩ := hn₁ m hm
  obtain ⟨n, rfl⟩ := Nat.exists_eq_add_of_le' hn
  have hg : guardPrec prec = true := by simp [guardPrec]; omega
  have hfalse : checkUnique E.A E.F m (Text.canonical l).1 e prec = .ok false := by
    cases b with
    | false => exact hb
    | true =>
      exfalso
      have hlen : 2 ≤ (Text.canonical l).1.length := by
        by_contra hlt
        unfold checkUnique at hb
        rw [if_pos (by omega)] at hb
        cases hb
      have hne : (Text.canonical l).1 ≠ [] := by intro h; rw [h] at hlen; simp at hlen
      have hlead : (Text.canonical l).1.getLastD 0 ≠ 0 := by
        rw [List.getLastD_eq_getLast?, List.getLast?_eq_getLast_of_ne_nil hne]
        exact hc.lead hne
      obtain ⟨h3, h4, h5⟩ := checkUnique_true hlead (fun m r h => hB emb prec m r (h ▸ he)) hb
      have hroot := fun x => hq ▸ root_iff (n := (Text.canonical l).1) hd x
      rcases hbad with ⟨x, hx, y, hy, hxy, rx, ry⟩ | ⟨g1, g2⟩
      · exact hxy (h3 x hx y hy ((hroot x).1 rx) ((hroot y).1 ry))
      · by_cases h2 : (Text.canonical l).1.length = 2
        · obtain ⟨x, hx, hr⟩ := h4 h2
          exact g1 x hx ((hroot x).2 hr)
        · obtain ⟨a, b, hi, x, k1, k2, hr⟩ := h5 h2
          exact g2 a b hi x k1 k2 ((hroot x).2 hr)
  unfold makeStr makeFun
  rw [loop]
  have h1 : makeStep { E with n₁ := m } s gen (fixedEmb emb prec) prec = .ok (.inl (prec * 2)) := by
    unfold makeStep
    simp only [hl, fixedEmb, ne_eq, not_true_eq_false, if_false, Res.bind, hg, he, hfalse,
      Bool.true_eq_false, if_true]
    rw [if_pos (by omega)]
  have h2 : makeStep { E with n₁ := m } s gen (fixedEmb emb prec) (prec * 2) =
      .throw "the given polynomial does not have a unique such root" := by
    unfold makeStep
    simp only [hl, fixedEmb]
    rw [if_pos (by omega)]
    rfl
  rw [h1]
  simp only
  rw [loop, h2]

/-- C52, `make` with a callback: the field is made from the ball that the callback gives at the
precision `prec * 2^i`; the callback was asked at the lower precisions `prec * 2^j` before, and
`fmpq_poly_check_unique_real_root` refused the ball each time. -/
theorem C52_make_callback_partial (hB : E.B.Wf) {n : ℕ} {s gen : List Char}
    {emb : ℤ → Res (List Char)} {prec : ℤ} {k : NamedField}
    (h : makeFun E n s gen emb prec = .ok k) :
    Text.IsVarname gen ∧ ∃ P i t e, Text.Reads E.R gen s P ∧ emb (prec * 2 ^ i) = .ok t ∧
      E.B.read t (prec * 2 ^ i) = some e ∧ MadeFrom P gen e (prec * 2 ^ i) k ∧
      (∀ α, Irreducible P → aeval α P = 0 → α ∈ e → Secure E.A k.field.nf.pol α E.n₂ e →
        α ∈ k.field.emb) ∧
      ∀ j < i, ∃ t' e', emb (prec * 2 ^ j) = .ok t' ∧ E.B.read t' (prec * 2 ^ j) = some e' ∧
        checkUnique E.A E.F E.n₁ k.field.nf.pol e' (prec * 2 ^ j) = .ok false := by
  obtain ⟨l, hl⟩ : ∃ l, Text.setStrPretty E.R s gen = some l := by
    cases hl : Text.setStrPretty E.R s gen with
    | some l => exact ⟨l, rfl⟩
    | none =>
      unfold makeFun at h
      cases n with
      | zero => simp [loop] at h
      | succ n => rw [loop] at h; unfold makeStep at h; rw [hl] at h; cases h
  obtain ⟨hv, hr⟩ := (Text.setStrPretty_iff E.R s gen (Text.polyOf l)).1 ⟨l, hl, rfl⟩
  suffices H : ∃ i t e, emb (prec * 2 ^ i) = .ok t ∧ E.B.read t (prec * 2 ^ i) = some e ∧
      MadeFrom (Text.polyOf l) gen e (prec * 2 ^ i) k ∧ k.field.nf.pol = (Text.canonical l).1 ∧
      (∀ α, Irreducible (Text.polyOf l) → aeval α (Text.polyOf l) = 0 → α ∈ e →
        Secure E.A k.field.nf.pol α E.n₂ e → α ∈ k.field.emb) ∧
      ∀ j < i, ∃ t' e', emb (prec * 2 ^ j) = .ok t' ∧ E.B.read t' (prec * 2 ^ j) = some e' ∧
        checkUnique E.A E.F E.n₁ (Text.canonical l).1 e' (prec * 2 ^ j) = .ok false by
    obtain ⟨i, t, e, h1, h2, h3, h4, h5, h6⟩ := H
    exact ⟨hv, _, i, t, e, hr, h1, h2, h3, h5, h4 ▸ h6⟩
  unfold makeFun at h
  induction n generalizing prec with
  | zero => simp [loop] at h
  | succ n ih =>
    rw [loop] at h
    cases hs : makeStep E s gen emb prec with
    | ok r =>
      rw [hs] at h
      cases r with
      | inr k' =>
        simp only [Res.ok.injEq] at h
        subst h
        obtain ⟨l', t, e, f, h1, h2, h3, h4, h5, rfl⟩ := makeStep_inr hs
        rw [hl] at h1
        cases h1
        have hm := made (gen := gen) hB h4 h5
        have hp : f.nf.pol = (Text.canonical l).1 := by
          obtain ⟨-, ⟨-, rfl⟩ | ⟨-, h⟩⟩ := renfInit_cases h5
          · rfl
          · obtain ⟨cp, b, -, -, rfl, -⟩ := refineEmbedding_cases h
            rfl
        refine ⟨0, t, e, by simpa using h2, by simpa using h4, by simpa using hm, hp,
          fun α hi hα hαe hs => ?_, fun j hj => absurd hj (by omega)⟩
        exact made_keeps (t := t) h5 hi hα hαe (hp ▸ hs)
      | inl p' =>
        simp only at h
        obtain ⟨rfl, l', t', e', h1, h2, h3, h4, h5⟩ := makeStep_inl hs
        rw [hl] at h1
        cases h1
        obtain ⟨i, t, e, g2, g3, g4, g5, g6, g7⟩ := ih h
        have e2 : ∀ i : ℕ, prec * 2 * 2 ^ i = prec * 2 ^ (i + 1) := fun i => by ring
        simp only [e2] at g2 g3 g4 g7
        refine ⟨i + 1, t, e, g2, g3, g4, g5, g6, fun j hj => ?_⟩
        cases j with
        | zero => exact ⟨t', e', by simpa using h2, by simpa using h4, by simpa using h5⟩
        | succ j => exact g7 j (by omega)
    | _ => rw [hs] at h; cases h

/-- C52: `renf_class::make()` returns the rational numbers, with the root 1 of `a - 1`. -/
theorem C52_trivial (hR : Text.RatReader E.R) {e : Ball}
    (he : E.B.read "1 +/- 1".toList 64 = some e) (h1 : (1 : ℝ) ∈ e) {n : ℕ} (hn : 1 ≤ n) :
    makeStr E n "a - 1".toList "a".toList "1 +/- 1".toList 64 =
      .ok ⟨⟨⟨[-1, 1]⟩, e, 64, false⟩, 1, "a".toList⟩ := by
  obtain ⟨n, rfl⟩ := Nat.exists_eq_add_of_le' hn
  have hv : Text.IsVarname "a".toList := ⟨'a', [], rfl, by decide, by simp⟩
  have h1' : E.R ['1'] = some 1 := hR 1 (by norm_num)
  have hr : Text.Reads E.R "a".toList "a - 1".toList (C 1 * X ^ 1 + C (-1) * X ^ 0) := by
    refine ⟨[(⟨[], none, 0, some ⟨none, .one 1⟩⟩, 1, 1), (⟨['-', ' '], some ['1'], 0, none⟩, -1, 0)],
      ?_, ?_, ?_, ?_⟩
    · intro x hx
      simp only [List.mem_cons, List.not_mem_nil, or_false] at hx
      rcases hx with rfl | rfl
      · refine ⟨⟨by simp, by simp, by simp, ?_⟩, rfl, .inl ⟨rfl, by simp [Text.Term.sign]⟩⟩
        intro p hp; simp only [Option.some.injEq] at hp; subst hp; trivial
      · refine ⟨⟨by simp, ?_, by simp, by simp⟩, rfl,
          .inr ⟨['1'], 1, rfl, h1', by simp [Text.Term.sign]⟩⟩
        intro n hn; simp only [Option.some.injEq] at hn; subst hn
        exact ⟨'1', [], rfl, by decide, by simp⟩
    · intro x hx
      simp only [List.tail_cons, List.mem_cons, List.not_mem_nil, or_false] at hx
      subst hx
      exact ⟨'-', [' '], rfl, .inr rfl⟩
    · decide
    · simp
  obtain ⟨l, hl, hP⟩ := (Text.setStrPretty_iff E.R _ _ _).2 ⟨hv, hr⟩
  have hcan : Text.canonical l = ([-1, 1], 1) := by
    obtain ⟨g1, g2⟩ := Text.canonical_spec l
    have hc : (⟨[-1, 1], 1⟩ : QPoly).Canonical :=
      ⟨by norm_num, fun g hg _ => isUnit_of_dvd_one hg, by simp⟩
    have := QPoly.canonical_unique g1 hc (by
      rw [g2, hP]; simp [QPoly.toPolyQ, toPolyQ]; ring)
    simp only [QPoly.mk.injEq] at this
    exact Prod.ext this.1 this.2
  have hch : checkUnique E.A E.F E.n₁ [-1, 1] e 64 = .ok true := by
    unfold checkUnique
    rw [if_neg (by simp), if_pos (by simp)]
    have : e.containsQ (-((([-1, 1] : List ℤ).getD 0 0 : ℚ) / (([-1, 1] : List ℤ).getD 1 0 : ℚ))) = true :=
      Ball.containsQ_spec.2 (by simpa using h1)
    rw [this]
  have hin : renfInit E.A E.F E.nd E.n₁ E.n₂ [-1, 1] e 64 = .ok ⟨⟨[-1, 1]⟩, e, 64, false⟩ := by
    unfold renfInit
    rw [hch]
    simp [Res.bind, Nf.isLinear]
  unfold makeStr makeFun
  rw [loop]
  unfold makeStep
  rw [hl]
  simp only [hcan, fixedEmb, ne_eq, not_true_eq_false, if_false, Res.bind, he, hch, hin,
    Bool.true_eq_false]
  rfl

/-- a reader of balls: midpoint, a blank, radius -/
def demoText : BallText where
  read s _ := match Text.readQ (s.takeWhile (· != ' ')), Text.readQ ((s.dropWhile (· != ' ')).drop 1) with
    | some m, some r => if 0 ≤ r ∧ ' ' ∈ s then some (.fin m r) else none
    | _, _ => none
  text _ _ := []

theorem demoText_wf : demoText.Wf := by
  intro s p m r h
  unfold demoText at h
  simp only at h
  split at h
  · split_ifs at h with h0
    simp only [Option.some.injEq, Ball.fin.injEq] at h
    exact h.2 ▸ h0.1
  · cases h

/-- the environment used in examples -/
def demoEnv : MakeEnv := ⟨fpArb, scale2Simple, Text.readQ, demoText, false, 100, 200⟩

/-- the hypotheses of `C52_make_partial` and `C52_make_callback_partial` are met: `√2` is made from a
text, and by a callback whose first answer is refused -/
example : (∃ k, makeStr demoEnv 2 "x^2 - 2".toList "x".toList "11/8 1/8".toList 64 = .ok k) ∧
    ∃ k, makeFun demoEnv 3 "1/2*x^2 - 1".toList "x".toList
      (fun p => .ok (if p = 8 then "0 2".toList else "11/8 1/8".toList)) 8 = .ok k ∧
      k.field.prec = 16 := by
  have h1 : (match makeStr demoEnv 2 "x^2 - 2".toList "x".toList "11/8 1/8".toList 64 with
      | .ok _ => true | _ => false) = true := by decide +kernel
  have h2 : (match makeFun demoEnv 3 "1/2*x^2 - 1".toList "x".toList
      (fun p => .ok (if p = 8 then "0 2".toList else "11/8 1/8".toList)) 8 with
      | .ok k => decide (k.field.prec = 16) | _ => false) = true := by decide +kernel
  constructor
  · split at h1
    · exact ⟨_, by assumption⟩
    · simp at h1
  · split at h2
    · exact ⟨_, by assumption, by simpa using h2⟩
    · simp at h2

/-- the three kinds of rejected input; the ball `[-2, 2]` contains two roots of `x² - 2` -/
example : makeStr demoEnv 2 "x^2 - y".toList "x".toList "11/8 1/8".toList 64 =
      .throw "renf_class: can not read polynomial from string" ∧
    makeStr demoEnv 2 "x^2 - 2".toList "x".toList "11/8".toList 64 =
      .throw "renf_class: can not read ball from string" ∧
    makeStr demoEnv 2 "x^2 - 2".toList "x".toList "0 2".toList 64 =
      .throw "the given polynomial does not have a unique such root" := by
  decide +kernel

/-- the hypotheses of `C52_rejects_not_isolating` are met -/
example : ∃ P : ℚ[X], Text.Reads Text.readQ "x".toList "x^2 - 2".toList P ∧ P ≠ 0 ∧
    (∀ x : ℝ, aeval x P = 0 → aeval x (derivative P) ≠ 0) ∧
    ∃ e, demoText.read "0 2".toList 64 = some e ∧
      ∃ x ∈ e, ∃ y ∈ e, x ≠ y ∧ aeval x P = 0 ∧ aeval y P = 0 := by
  have h : Text.setStrPretty Text.readQ "x^2 - 2".toList "x".toList = some [-2, 0, 1] := by
    decide +kernel
  have hP : Text.polyOf [-2, 0, 1] = X ^ 2 - C 2 := by
    simp only [Text.polyOf]; simp; ring
  have hr := ((Text.setStrPretty_iff _ _ _ _).1 ⟨_, h, hP⟩).2
  have hs : (√2 : ℝ) ^ 2 = 2 := Real.sq_sqrt (by norm_num)
  have hpos : (0 : ℝ) < √2 := by positivity
  have hle : √2 ≤ (2 : ℝ) := by rw [Real.sqrt_le_left (by norm_num)]; norm_num
  refine ⟨_, hr, ?_, ?_, .fin 0 2, by decide +kernel, √2, ?_, -√2, ?_, ?_, ?_, ?_⟩
  · intro h0; have := congrArg (fun p : ℚ[X] => p.eval 0) h0; simp at this
  · intro x hx h0
    simp only [map_sub, map_pow, aeval_X, aeval_C] at hx
    simp at h0
    rw [h0] at hx; norm_num at hx
  · rw [Ball.mem_fin]; push_cast; constructor <;> linarith
  · rw [Ball.mem_fin]; push_cast; constructor <;> linarith
  · linarith
  · simp [hs]
  · simp [hs]

/-! ## C40: restoring a field from its text -/

/-- texts that lose nothing exist -/
theorem exists_exact : ∃ B : BallText, B.Exact := by
  have hinj : Function.Injective (fun b : Ball => match b with
      | .whole => (none : Option (ℚ × ℚ)) | .fin m r => some (m, r)) := by
    intro a b h
    cases a <;> cases b <;> simp_all
  obtain ⟨f, hf⟩ := hinj.countable.exists_injective_nat
  classical
  refine ⟨⟨fun s _ => if h : ∃ b, f b = s.length then some h.choose else none,
    fun b _ => List.replicate (f b) '1'⟩, fun b n p => ?_⟩
  have h : ∃ b', f b' = (List.replicate (f b) '1').length := ⟨b, by simp⟩
  show (if h : ∃ b', f b' = (List.replicate (f b) '1').length then some h.choose else none) = some b
  rw [dif_pos h]
  exact congrArg some (hf (h.choose_spec.trans (by simp)))

/-- C40, one field: `make` applied to `construction()` of a field `k` gives a field with the same
polynomial, name and precision, embedded at the same root and equal to `k`, if
`fmpq_poly_check_unique_real_root` accepts the ball read back and the refinement from this ball
returns and cannot leave the root (`C40_restore_counterexample` shows that the ball read back may be
refused). -/
theorem C40_restore_partial (hR : Text.RatReader E.R) {k : NamedField} {α : ℝ}
    (hc : (⟨k.field.nf.pol, k.den⟩ : QPoly).Canonical) (hi : Irreducible k.poly)
    (hα : aeval α k.poly = 0) (hαe : α ∈ k.field.emb) (hv : Text.IsVarname k.name)
    (hlen : k.field.nf.pol.length ≤ Text.longMax) (hp : 2 ≤ k.field.prec) {e : Ball}
    (he : E.B.read (constructionOf E.B k).emb k.field.prec = some e) (hmem : ∀ x ∈ k.field.emb, x ∈ e)
    (hacc : checkUnique E.A E.F E.n₁ k.field.nf.pol e k.field.prec = .ok true)
    (hsec : Secure E.A k.field.nf.pol α E.n₂ e) {f : Field}
    (hf : renfInit E.A E.F E.nd E.n₁ E.n₂ k.field.nf.pol e k.field.prec = .ok f) {n : ℕ} (hn : 1 ≤ n) :
    ∃ k', makeStr E n (constructionOf E.B k).minpoly (constructionOf E.B k).name
        (constructionOf E.B k).emb (constructionOf E.B k).prec = .ok k' ∧
      k'.field.nf = k.field.nf ∧ k'.den = k.den ∧ k'.name = k.name ∧ k'.field.prec = k.field.prec ∧
      α ∈ k'.field.emb ∧ renfEqual k.field k.den k'.field k'.den = true := by
  obtain ⟨l, h1, h2⟩ := Text.canonical_pretty hR hv hlen hc
  obtain ⟨n, rfl⟩ := Nat.exists_eq_add_of_le' hn
  have hg : guardPrec k.field.prec = true := by simp [guardPrec]; omega
  have hK := ok_of_irreducible hc hi
  have hr := (root_iff hc.den_pos.ne' α).1 hα
  obtain ⟨g1, g2, g3, -, -⟩ := renfInit_keeps hK hr (hmem α hαe) hsec hf
  refine ⟨⟨f, k.den, k.name⟩, ?_, g1, rfl, rfl, g3, g2, ?_⟩
  · unfold makeStr makeFun
    have hm : (constructionOf E.B k).minpoly = Text.pretty k.name k.field.nf.pol k.den := rfl
    have hp : (constructionOf E.B k).prec = k.field.prec := rfl
    have hname : (constructionOf E.B k).name = k.name := rfl
    rw [loop, hm, hp, hname]
    unfold makeStep
    simp only [h1, h2, fixedEmb, ne_eq, not_true_eq_false, if_false, Res.bind, hg, he, hacc, hf,
      Bool.true_eq_false]
  · exact C19_same_root (congrArg Nf.pol g1.symm) rfl hαe g2

/-- the hypotheses are met by the field of `∛2`, with texts that lose nothing -/
example : ∃ E : MakeEnv, ∃ k : NamedField, Text.RatReader E.R ∧
    (⟨k.field.nf.pol, k.den⟩ : QPoly).Canonical ∧ Irreducible k.poly ∧ aeval cbrt2 k.poly = 0 ∧
    cbrt2 ∈ k.field.emb ∧ Text.IsVarname k.name ∧ E.B.Exact ∧
    checkUnique E.A E.F E.n₁ k.field.nf.pol k.field.emb k.field.prec = .ok true ∧
    Secure E.A k.field.nf.pol cbrt2 E.n₂ k.field.emb ∧
    ∃ f, renfInit E.A E.F E.nd E.n₁ E.n₂ k.field.nf.pol k.field.emb k.field.prec = .ok f := by
  obtain ⟨B, hB⟩ := exists_exact
  have hc : (⟨[-2, 0, 0, 1], 1⟩ : QPoly).Canonical :=
    ⟨by norm_num, fun g hg _ => isUnit_of_dvd_one hg, by simp⟩
  refine ⟨⟨fpArb, scale2Simple, Text.readQ, B, false, 100, 200⟩, ⟨fld3, 1, ['x']⟩, Text.readQ_ok, hc, ?_,
    (root_iff (by norm_num) _).2 K3_root, fld3_good.enc, ⟨'x', [], rfl, by decide, by simp⟩, hB,
    (by decide +kernel : checkUnique fpArb scale2Simple 100 K3.pol fld3.emb 64 = .ok true),
    .inl K3_unique, ?_⟩
  · have := K3_ok.irr
    simpa [NamedField.poly, QPoly.toPolyQ, fld3] using this
  · have h : (match renfInit fpArb scale2Simple false 100 200 K3.pol fld3.emb 64 with
      | .ok _ => true | _ => false) = true := by decide +kernel
    split at h
    · exact ⟨_, by assumption⟩
    · simp at h

/-- C40: the ball in `construction()` is given to enough digits.  Read back at the precision of the
field it contains the embedding; its radius is that of the embedding up to a constant, an error below
one unit of the last bit of the midpoint (a midpoint with `b` bits has the relative precision
`2 ^ (-b)`), and the rounding of the reader. -/
theorem C40_text_accuracy {B : BallText} (hB : B.Encloses) (hB' : B.Accurate) {k : NamedField} {m r : ℚ}
    (he : k.field.emb = .fin m r) (hr : 0 ≤ r) (hp : 2 ≤ k.field.prec) :
    ∃ M R, B.read (constructionOf B k).emb k.field.prec = some (.fin M R) ∧
      (∀ x ∈ k.field.emb, x ∈ Ball.fin M R) ∧
      R ≤ 32 * (r + |m| * 2 ^ (-(arfBits m)) + |m| * 2 ^ (-k.field.prec)) := by
  obtain ⟨M, R, h1, h2⟩ := hB' m r (midBits (.fin m r)) k.field.prec hp hr
  obtain ⟨e, h3, h4⟩ := hB (.fin m r) (midBits (.fin m r)) k.field.prec hp
  rw [h1] at h3
  injection h3 with h3
  subst h3
  refine ⟨M, R, ?_, by rw [he]; exact h4, h2.trans ?_⟩
  · have : (constructionOf B k).emb = B.text (.fin m r) (midBits (.fin m r)) := by
      simp [constructionOf, he]
    rw [this]
    exact h1
  · have h5 : |m| / 10 ^ midBits (.fin m r) ≤ |m| * 2 ^ (-(arfBits m)) := by
      rw [div_eq_mul_inv]
      refine mul_le_mul_of_nonneg_left ?_ (abs_nonneg m)
      rw [zpow_neg]
      refine inv_anti₀ (by positivity) ?_
      have h6 : (2 : ℚ) ^ arfBits m ≤ 2 ^ midBits (.fin m r) := by
        rw [← zpow_natCast]
        refine zpow_le_zpow_right₀ (by norm_num) ?_
        exact Int.self_le_toNat (arfBits m)
      exact h6.trans (pow_le_pow_left₀ (by norm_num) (by norm_num) _)
    linarith

/-- the hypotheses are met by texts that lose nothing and the field of `∛2` -/
example : ∃ B : BallText, B.Encloses ∧ B.Accurate ∧ ∃ m r, fld3.emb = .fin m r ∧ 0 ≤ r := by
  obtain ⟨B, hB⟩ := exists_exact
  refine ⟨B, fun b n p _ => ⟨b, hB b n p, fun _ h => h⟩, fun m r n p _ hr => ⟨m, r, hB _ _ _, ?_⟩,
    _, _, rfl, by norm_num⟩
  have h1 : 0 ≤ |m| / 10 ^ n := by positivity
  have h2 : 0 ≤ |m| * 2 ^ (-p) := by positivity
  linarith

/-- the polynomial `2^186 (x-1)^3 - 3 2^106 (x-1) + 3`, with three roots near 1 -/
def cluster : List ℤ :=
  [-2 ^ 186 + 3 * 2 ^ 106 + 3, 3 * 2 ^ 186 - 3 * 2 ^ 106, -3 * 2 ^ 186, 2 ^ 186]

/-- a ball around the largest root -/
def clusterBall : Ball := .fin (1 + 3 / 2 / 2 ^ 40) (1 / 2 / 2 ^ 40)

/-- the field made from this ball -/
def clusterField : Field :=
  ⟨⟨cluster⟩, .fin (36893488147477221213 / 36893488147419103232) (1 / 36893488147419103232), 64, false⟩

theorem cluster_irreducible : Irreducible (toPolyQ cluster) := by
  have h := cluster_shift (2 ^ 186) (-2 ^ 106) (by decide)
  have e : cluster = [-2 ^ 186 - 3 * -2 ^ 106 + 3, 3 * 2 ^ 186 + 3 * -2 ^ 106, -3 * 2 ^ 186, 2 ^ 186] := by
    decide
  rw [e]; exact h

theorem cluster_canonical : (⟨cluster, 1⟩ : QPoly).Canonical :=
  ⟨by norm_num, fun g hg _ => isUnit_of_dvd_one hg, fun _ => by
    show (2 ^ 186 : ℤ) ≠ 0; positivity⟩

/-- the library used in the counterexamples -/
def clusterEnv (R : List Char → Option ℚ) (B : BallText) : MakeEnv :=
  ⟨fpArb, scale2Simple, R, B, false, 200, 300⟩

theorem cluster_make (R : List Char → Option ℚ) (hR : Text.RatReader R) (B : BallText) (hB : B.Exact) :
    makeStr (clusterEnv R B) 2 (Text.pretty ['x'] cluster 1) ['x'] (B.text clusterBall 64) 64 =
      .ok ⟨clusterField, 1, ['x']⟩ ∧
    Irreducible (⟨clusterField, 1, ['x']⟩ : NamedField).poly ∧
    (∃! x : ℝ, x ∈ clusterBall ∧ aeval x (⟨clusterField, 1, ['x']⟩ : NamedField).poly = 0) ∧
    makeStr (clusterEnv R B) 2 (constructionOf B ⟨clusterField, 1, ['x']⟩).minpoly
        (constructionOf B ⟨clusterField, 1, ['x']⟩).name (constructionOf B ⟨clusterField, 1, ['x']⟩).emb
        (constructionOf B ⟨clusterField, 1, ['x']⟩).prec =
      .throw "the given polynomial does not have a unique such root" := by
  have hv : Text.IsVarname ['x'] := ⟨'x', [], rfl, by decide, by simp⟩
  obtain ⟨l, h1, h2⟩ := Text.canonical_pretty hR hv (num := cluster) (den := 1) (by decide)
    cluster_canonical
  have hu : toPolyQ cluster = (⟨cluster, 1⟩ : QPoly).toPolyQ := by
    simp [QPoly.toPolyQ]
  have hch : checkUnique fpArb scale2Simple 200 cluster clusterBall 64 = .ok true := by decide +kernel
  have hin : renfInit fpArb scale2Simple false 200 300 cluster clusterBall 64 = .ok clusterField := by
    decide +kernel
  have hch2 : checkUnique fpArb scale2Simple 200 cluster clusterField.emb 64 = .ok false := by
    decide +kernel
  have hg : guardPrec 64 = true := by decide
  unfold clusterEnv
  refine ⟨?_, ?_, ?_, ?_⟩
  · unfold makeStr makeFun
    rw [loop]
    unfold makeStep
    simp only [h1, h2, fixedEmb, ne_eq, not_true_eq_false, if_false, Res.bind, hg, hB _ _ _, hch, hin,
      Bool.true_eq_false]
  · unfold NamedField.poly
    exact hu ▸ cluster_irreducible
  · have := C18_exactly_one_partial (pol := cluster) (a := clusterBall) (by decide)
      (fun m r h => by unfold clusterBall at h; cases h; norm_num)
      (.inr ⟨1 + 3 / 2 / 2 ^ 40, 1 / 2 / 2 ^ 40, rfl, by decide +kernel⟩) hch
    have hr := fun x : ℝ => root_iff (n := cluster) (d := 1) (by norm_num) x
    unfold NamedField.poly
    simpa only [clusterField, hr] using this
  · unfold makeStr makeFun
    have hm : (constructionOf B ⟨clusterField, 1, ['x']⟩).minpoly = Text.pretty ['x'] cluster 1 := rfl
    have hp : (constructionOf B ⟨clusterField, 1, ['x']⟩).prec = 64 := rfl
    have hname : (constructionOf B ⟨clusterField, 1, ['x']⟩).name = ['x'] := rfl
    have hemb : B.read (constructionOf B ⟨clusterField, 1, ['x']⟩).emb 64 = some clusterField.emb :=
      hB _ _ _
    rw [loop, hm, hp, hname]
    have s1 : makeStep ⟨fpArb, scale2Simple, R, B, false, 200, 300⟩ (Text.pretty ['x'] cluster 1) ['x']
        (fixedEmb (constructionOf B ⟨clusterField, 1, ['x']⟩).emb 64) 64 = .ok (.inl (64 * 2)) := by
      unfold makeStep
      simp only [h1, h2, fixedEmb, ne_eq, not_true_eq_false, if_false, Res.bind, hg, hemb, hch2,
        Bool.true_eq_false, if_true]
      rfl
    have s2 : makeStep ⟨fpArb, scale2Simple, R, B, false, 200, 300⟩ (Text.pretty ['x'] cluster 1) ['x']
        (fixedEmb (constructionOf B ⟨clusterField, 1, ['x']⟩).emb 64) (64 * 2) =
        .throw "the given polynomial does not have a unique such root" := by
      unfold makeStep
      simp only [h1, fixedEmb]
      rfl
    rw [s1]
    simp only
    rw [loop, s2]

/-- C40 is FALSE of the code, even if texts lose nothing: a field is made from a ball that contains
exactly one root of an irreducible polynomial; `make` throws when it is applied to what
`construction()` returns for that field, as `fmpq_poly_check_unique_real_root` cannot tell the sign of
the polynomial at the end points of the refined enclosure. -/
theorem C40_restore_counterexample (R : List Char → Option ℚ) (hR : Text.RatReader R) (B : BallText)
    (hB : B.Exact) :
    ∃ E : MakeEnv, E.R = R ∧ E.B = B ∧ ∃ k : NamedField,
      makeStr E 2 (Text.pretty ['x'] cluster 1) ['x'] (B.text clusterBall 64) 64 = .ok k ∧
      Irreducible k.poly ∧ (∃! x : ℝ, x ∈ clusterBall ∧ aeval x k.poly = 0) ∧
      makeStr E 2 (constructionOf B k).minpoly (constructionOf B k).name (constructionOf B k).emb
        (constructionOf B k).prec = .throw "the given polynomial does not have a unique such root" := by
  obtain ⟨h1, h2, h3, h4⟩ := cluster_make R hR B hB
  exact ⟨clusterEnv R B, rfl, rfl, _, h1, h2, h3, h4⟩

theorem cluster_emb_sub {x : ℝ} (hx : x ∈ clusterField.emb) : x ∈ clusterBall := by
  unfold clusterField at hx
  unfold clusterBall
  rw [Ball.mem_fin] at hx ⊢
  push_cast at hx ⊢
  constructor
  · refine le_trans ?_ hx.1; norm_num
  · refine le_trans hx.2 ?_; norm_num

theorem cluster_emb_root : ∃ x : ℝ, x ∈ clusterField.emb ∧ (toPoly cluster).IsRoot x := by
  have hc : ContinuousOn (fun x : ℝ => (toPoly cluster).eval x) (Set.Icc
      (36893488147477221212 / 36893488147419103232) (36893488147477221214 / 36893488147419103232)) :=
    (toPoly cluster).continuous.continuousOn
  obtain ⟨x, hx, h0⟩ := intermediate_value_Icc (by norm_num) hc
    (show (0 : ℝ) ∈ Set.Icc _ _ from ⟨by simp [toPoly, cluster]; norm_num, by simp [toPoly, cluster]; norm_num⟩)
  refine ⟨x, ?_, h0⟩
  unfold clusterField
  rw [Ball.mem_fin]
  push_cast
  constructor
  · refine le_trans (le_of_eq ?_) hx.1; norm_num
  · refine le_trans hx.2 (le_of_eq ?_); norm_num

/-- C52: that every isolating ball is accepted is FALSE of the code: `minpoly` is the text of an
irreducible polynomial, `emb` is the text of a ball that contains exactly one root of it, and `make`
throws. -/
theorem C52_isolating_counterexample (R : List Char → Option ℚ) (hR : Text.RatReader R) (B : BallText)
    (hB : B.Exact) :
    ∃ E : MakeEnv, E.R = R ∧ E.B = B ∧ ∃ (s emb : List Char) (P : ℚ[X]) (e : Ball),
      Text.Reads R ['x'] s P ∧ Irreducible P ∧ B.read emb 64 = some e ∧
      (∃! x : ℝ, x ∈ e ∧ aeval x P = 0) ∧
      makeStr E 2 s ['x'] emb 64 = .throw "the given polynomial does not have a unique such root" := by
  obtain ⟨h1, h2, h3, h4⟩ := cluster_make R hR B hB
  refine ⟨clusterEnv R B, rfl, rfl, _, (constructionOf B ⟨clusterField, 1, ['x']⟩).emb, _,
    clusterField.emb, Text.pretty_reads hR ['x'] cluster 1 (by decide), h2, hB _ _ _, ?_, h4⟩
  obtain ⟨x, hx, h0⟩ := cluster_emb_root
  refine ⟨x, ⟨hx, (root_iff (by norm_num) x).2 h0⟩, fun y hy => ?_⟩
  exact h3.unique ⟨cluster_emb_sub hy.1, hy.2⟩ ⟨cluster_emb_sub hx, (root_iff (by norm_num) x).2 h0⟩

/-- the hypotheses of `C40_restore_counterexample` and `C52_isolating_counterexample` are met -/
example : Text.RatReader Text.readQ ∧ ∃ B : BallText, B.Exact := ⟨Text.readQ_ok, exists_exact⟩

/-! ## C53: integer polynomials from text -/

/-- C53, the full statement (false by `C53_counterexample`): if `s` is a text for a polynomial `P` with
integer coefficients then `fmpz_poly_set_str_pretty` succeeds and `p` becomes `P`.  Proved part: if the
coefficients of the old `p` beyond the degree of `P` are zero, in particular if `p` was zero. -/
theorem C53_set_str_partial {R : List Char → Option ℚ} {p : List ℤ} {s var : List Char}
    (hv : Text.IsVarname var) {P : ℚ[X]} (hP : Text.Reads R var s P)
    (hint : ∀ i, ∃ c : ℤ, P.coeff i = c)
    (hp : ∀ i, P.natDegree < i ∨ P = 0 → p.getD i 0 = 0) :
    ∃ r, setStrPrettyZ R p s var = some r ∧ toPolyQ r = P := by
  obtain ⟨r, h1, h2⟩ := setStrPrettyZ_some (p := p) hv hP hint
  refine ⟨r, h1, ?_⟩
  ext i
  rw [coeff_toPolyQ, h2]
  split_ifs with h
  · rfl
  · have h' : P.natDegree < i ∨ P = 0 := by
      by_contra hn; push Not at hn; exact h hn
    rw [hp i h']
    rcases h' with h' | h'
    · rw [coeff_eq_zero_of_natDegree_lt h']; simp
    · rw [h']; simp

/-- C53: what happens in general: the coefficients of the old `p` beyond the degree of `P` stay. -/
theorem C53_set_str_general {R : List Char → Option ℚ} {p : List ℤ} {s var : List Char}
    (hv : Text.IsVarname var) {P : ℚ[X]} (hP : Text.Reads R var s P)
    (hint : ∀ i, ∃ c : ℤ, P.coeff i = c) :
    ∃ r, setStrPrettyZ R p s var = some r ∧
      ∀ i, (r.getD i 0 : ℚ) = if i ≤ P.natDegree ∧ P ≠ 0 then P.coeff i else p.getD i 0 :=
  setStrPrettyZ_some hv hP hint

/-- C53: anything else is reported as a failure. -/
theorem C53_rejects {R : List Char → Option ℚ} {p : List ℤ} {s var : List Char}
    (h : ¬ (Text.IsVarname var ∧ ∃ P, Text.Reads R var s P ∧ ∀ i, ∃ c : ℤ, P.coeff i = c)) :
    setStrPrettyZ R p s var = none := by
  unfold setStrPrettyZ
  cases hl : Text.setStrPretty R s var with
  | none => rfl
  | some l =>
    obtain ⟨hv, hr⟩ := (Text.setStrPretty_iff R s var (Text.polyOf l)).1 ⟨l, hl, rfl⟩
    simp only
    rw [if_pos]
    intro hd
    refine h ⟨hv, _, hr, fun i => ?_⟩
    obtain ⟨-, h2⟩ := Text.canonical_spec l
    rw [← h2, QPoly.toPolyQ, coeff_C_mul, coeff_toPolyQ, hd]
    exact ⟨(Text.canonical l).1.getD i 0, by simp⟩

/-- C53 is FALSE of the code: reading `1` into a variable that holds `x²` gives `x² + 1`, and reading
the empty text (the polynomial 0) changes nothing. -/
theorem C53_counterexample : setStrPrettyZ Text.readQ [0, 0, 1] "1".toList "x".toList = some [1, 0, 1] ∧
    Text.Reads Text.readQ "x".toList "1".toList 1 ∧
    setStrPrettyZ Text.readQ [0, 0, 1] [] "x".toList = some [0, 0, 1] ∧
    Text.Reads Text.readQ "x".toList [] 0 := by
  refine ⟨by decide +kernel, ?_, by decide +kernel, ?_⟩
  · have h : Text.setStrPretty Text.readQ "1".toList "x".toList = some [1] := by decide +kernel
    exact ((Text.setStrPretty_iff _ _ _ _).1 ⟨_, h, by simp [Text.polyOf]⟩).2
  · have h : Text.setStrPretty Text.readQ [] "x".toList = some [] := by decide +kernel
    exact ((Text.setStrPretty_iff _ _ _ _).1 ⟨_, h, by simp [Text.polyOf]⟩).2

/-- `3*x^2 - x` is read into a fresh variable, and into one that held `5 + x`; `x/2` is refused -/
example : setStrPrettyZ Text.readQ [] "3*x^2 - x".toList "x".toList = some [0, -1, 3] ∧
    setStrPrettyZ Text.readQ [5, 1] "3*x^2 - x".toList "x".toList = some [0, -1, 3] ∧
    setStrPrettyZ Text.readQ [] "1/2*x".toList "x".toList = none := by
  decide +kernel

end EAntic
