import Verif.Model.ArraysLast
import Verif.Lemmas.ArraysMore
import Verif.Lemmas.SturmLoop

/-! # The remaining loops over arrays (helper lemmas) -/

namespace EAntic.Arrays
open Polynomial

/-! ## Sturm -/

theorem sturmNext_eq (R : PseudoRem) {p0 p1 : List ℤ} (hl : p1 ≠ []) :
    sturmNext R p0 p1 = .ok (EAntic.sturmNext R p0 p1) := by
  have hloop : ∀ (c : ℤ) (r : List ℤ), forUp 0 r.length (fun i p => do
      let x ← rd p i
      wr p i (x / c)) r = .ok (r.map (· / c)) := by
    intro c r
    have := forUp_map (fun i p => do
      let x ← rd p i
      wr p i (x / c)) (· / c) (fun A B x i hi => by
        rw [rd_mid A B x i hi, Res.ok_bind, wr_mid A B x _ i hi]) [] r [] 0 r.length rfl (by simp)
    simpa using this
  have hlast : rd p1 ((p1.length : ℤ) - 1) = .ok (p1.getLastD 0) := by
    have hpos := List.length_pos_of_ne_nil hl
    have e : ((p1.length : ℤ) - 1) = ((p1.length - 1 : ℕ) : ℤ) := by omega
    rw [e, rd_nat p1 _ (by omega), List.getLastD_eq_getLast?, List.getLast?_eq_some_getLast hl,
      List.getLast_eq_getElem]
    rfl
  unfold sturmNext EAntic.sturmNext
  generalize R.rem p0 p1 = q
  obtain ⟨r, d⟩ := q
  simp only
  by_cases hd : d % 2 = 0
  · rw [if_pos hd, if_pos (Or.inl hd)]
    simp only [Res.pure_eq, Res.ok_bind, if_true]
    split_ifs
    · exact hloop _ _
    · rfl
  · rw [if_neg hd, hlast]
    simp only [Res.pure_eq, Res.ok_bind]
    by_cases hs : sgn (p1.getLastD 0) = 1
    · rw [if_pos (Or.inr hs)]
      simp only [hs, decide_true, if_true]
      split_ifs
      · exact hloop _ _
      · rfl
    · rw [if_neg (show ¬(d % 2 = 0 ∨ sgn (p1.getLastD 0) = 1) by tauto)]
      simp only [hs, decide_false, Bool.false_eq_true, if_false]
      split_ifs
      · exact hloop _ _
      · rfl

lemma cint_ok {x : ℤ} (h : |x| < 2 ^ 31) : cint x = .ok x := by
  rw [abs_lt] at h
  unfold cint
  rw [if_pos (by omega)]

lemma signChangeAt0_abs (s a t : ℤ) : |(signChangeAt0 s a t).2| ≤ |t| + 1 := by
  unfold signChangeAt0
  split_ifs <;> simp only <;> rw [abs_le] <;> rcases abs_cases t with h | h <;> omega

lemma sturmStep_eq (R : PseudoRem) {s : SturmState} (ht : |s.t| + 1 < 2 ^ 31) :
    sturmStep R s = EAntic.sturmStep R s ∧ ∀ s', EAntic.sturmStep R s = .ok (.inl s') → |s'.t| ≤ |s.t| + 1 := by
  unfold sturmStep EAntic.sturmStep
  by_cases hp : s.p1 = []
  · simp [hp]
  · rw [if_neg hp, if_neg hp]
    have h0 : rd s.p1 0 = .ok (s.p1.headD 0) := by
      obtain ⟨a, l, hl⟩ := List.exists_cons_of_ne_nil hp
      rw [hl]; rfl
    rw [h0, window_all _ _ rfl, sturmNext_eq R hp]
    simp only [Res.ok_bind, Res.pure_eq]
    have h1 := signChangeAt0_abs (sgn (s.p1.headD 0)) s.s0a s.t
    have h2 : |(signChangeAt1 (sgn (evaluateAtOne s.p1)) s.s0b
        (signChangeAt0 (sgn (s.p1.headD 0)) s.s0a s.t).2).2| ≤ |s.t| + 1 := by
      unfold signChangeAt1 signChangeAt0
      split_ifs <;> simp only <;> rw [abs_le] <;> rcases abs_cases s.t with h | h <;> omega
    generalize hq : signChangeAt0 (sgn (s.p1.headD 0)) s.s0a s.t = q at *
    obtain ⟨a, t⟩ := q
    simp only at h1 h2 ⊢
    rw [cint_ok (by omega)]
    simp only [Res.ok_bind]
    generalize signChangeAt1 (sgn (evaluateAtOne s.p1)) s.s0b t = q at *
    obtain ⟨b, t'⟩ := q
    simp only at h2 ⊢
    rw [cint_ok (by omega)]
    simp only [Res.ok_bind]
    refine ⟨trivial, ?_⟩
    intro s' h
    simp only [Res.ok.injEq, Sum.inl.injEq] at h
    rw [← h]
    exact h2

lemma sturmNext_length (R : PseudoRem) {p0 p1 : List ℤ} (hl : p1.getLastD 0 ≠ 0) :
    Lead (EAntic.sturmNext R p0 p1) ∧ (EAntic.sturmNext R p0 p1).length < p1.length := by
  obtain ⟨h1, h2, -⟩ := sturmNext_spec R (p0 := p0) hl one_pos one_pos (P := toPoly p0) (Q := toPoly p1)
    (by simp) (by simp)
  exact ⟨h1, h2⟩

lemma sturmLoop_eq (R : PseudoRem) : ∀ (n : ℕ) (s : SturmState), Lead s.p1 →
    |s.t| + s.p1.length < 2 ^ 31 → loop (sturmStep R) n s = loop (EAntic.sturmStep R) n s := by
  intro n
  induction n with
  | zero => intro s _ _; rfl
  | succ n ih =>
    intro s hl ht
    rw [loop, loop]
    by_cases hp : s.p1 = []
    · simp [sturmStep, EAntic.sturmStep, hp]
    · have hpos := List.length_pos_of_ne_nil hp
      obtain ⟨h1, h2⟩ := sturmStep_eq R (s := s) (by omega)
      rw [h1]
      cases hs : EAntic.sturmStep R s with
      | ok r =>
        cases r with
        | inl s' =>
          simp only
          have h3 := h2 s' hs
          have h4 : s'.p1 = EAntic.sturmNext R s.p0 s.p1 := by
            rw [EAntic.sturmStep, if_neg hp] at hs
            simp only [Res.ok.injEq, Sum.inl.injEq] at hs
            rw [← hs]
          obtain ⟨h5, h6⟩ := sturmNext_length R (p0 := s.p0) (hl hp)
          rw [← h4] at h5 h6
          exact ih s' h5 (by omega)
        | inr r => rfl
      | _ => rfl

theorem sturm01_spec (R : PseudoRem) (fuel : ℕ) (pol : List ℤ) (hl : Lead pol) (hlen : pol.length ≤ 2 ^ 31) :
    sturm01 R fuel pol = numRealRoots01Sturm R fuel pol := by
  unfold sturm01 numRealRoots01Sturm
  by_cases hp : pol = []
  · rw [if_pos hp, if_pos hp]
  · rw [if_neg hp, if_neg hp]
    have h0 : rd pol 0 = .ok (pol.headD 0) := by
      obtain ⟨a, l, hl⟩ := List.exists_cons_of_ne_nil hp
      rw [hl]; rfl
    have hpos := List.length_pos_of_ne_nil hp
    rw [h0, window_all _ _ rfl]
    simp only [Res.ok_bind]
    obtain ⟨h1, h2⟩ := derivList_lead hl
    refine sturmLoop_eq R fuel _ h1 ?_
    simp only [h2, abs_zero]
    omega

/-- without a bound on the length: the same result, which is an `int`, or the counter overflows -/
lemma sturmLoop_or (R : PseudoRem) : ∀ (n : ℕ) (s : SturmState), Lead s.p1 → -2 ^ 31 ≤ s.t → s.t < 2 ^ 31 →
    loop (sturmStep R) n s = .ub ∨ loop (sturmStep R) n s = loop (EAntic.sturmStep R) n s ∧
      ∀ t, loop (sturmStep R) n s = .ok t → -2 ^ 31 ≤ t ∧ t < 2 ^ 31 := by
  intro n
  induction n with
  | zero => intro s _ _ _; exact .inr ⟨rfl, fun t h => by simp [loop] at h⟩
  | succ n ih =>
    intro s hl h1 h2
    rw [loop, loop]
    by_cases hp : s.p1 = []
    · refine .inr ⟨by simp [sturmStep, EAntic.sturmStep, hp], fun t h => ?_⟩
      simp [sturmStep, hp] at h
      omega
    · have h0 : rd s.p1 0 = .ok (s.p1.headD 0) := by
        obtain ⟨a, l, hl⟩ := List.exists_cons_of_ne_nil hp
        rw [hl]; rfl
      obtain ⟨h5, -⟩ := sturmNext_length R (p0 := s.p0) (hl hp)
      rw [sturmStep, EAntic.sturmStep, if_neg hp, if_neg hp, h0, window_all _ _ rfl, sturmNext_eq R hp]
      simp only [Res.ok_bind, Res.pure_eq]
      generalize signChangeAt0 (sgn (s.p1.headD 0)) s.s0a s.t = q
      obtain ⟨a, t⟩ := q
      by_cases ht : -2 ^ 31 ≤ t ∧ t < 2 ^ 31
      · simp only [cint, if_pos ht, Res.ok_bind]
        generalize signChangeAt1 (sgn (evaluateAtOne s.p1)) s.s0b t = q
        obtain ⟨b, t'⟩ := q
        by_cases ht' : -2 ^ 31 ≤ t' ∧ t' < 2 ^ 31
        · simp only [if_pos ht', Res.ok_bind]
          exact ih ⟨s.p1, EAntic.sturmNext R s.p0 s.p1, a, b, t'⟩ h5 ht'.1 ht'.2
        · left
          simp only [if_neg ht']
          rfl
      · left
        simp only [cint, if_neg ht]
        rfl

theorem sturm01_or (R : PseudoRem) (fuel : ℕ) (pol : List ℤ) (hl : Lead pol) :
    sturm01 R fuel pol = .ub ∨ sturm01 R fuel pol = numRealRoots01Sturm R fuel pol ∧
      ∀ t, sturm01 R fuel pol = .ok t → -2 ^ 31 ≤ t ∧ t < 2 ^ 31 := by
  unfold sturm01 numRealRoots01Sturm
  by_cases hp : pol = []
  · rw [if_pos hp, if_pos hp]
    exact .inr ⟨rfl, fun t h => by simp at h⟩
  · rw [if_neg hp, if_neg hp]
    have h0 : rd pol 0 = .ok (pol.headD 0) := by
      obtain ⟨a, l, hl⟩ := List.exists_cons_of_ne_nil hp
      rw [hl]; rfl
    rw [h0, window_all _ _ rfl]
    simp only [Res.ok_bind]
    exact sturmLoop_or R fuel _ (derivList_lead hl).1 (by norm_num) (by norm_num)

lemma sturmLoop_ne_ub (R : PseudoRem) : ∀ (n : ℕ) (s : SturmState), loop (EAntic.sturmStep R) n s ≠ .ub := by
  intro n
  induction n with
  | zero => intro s h; simp [loop] at h
  | succ n ih =>
    intro s
    rw [loop]
    by_cases hp : s.p1 = []
    · simp [EAntic.sturmStep, hp]
    · rw [EAntic.sturmStep, if_neg hp]
      exact ih _

/-! ## Continued fractions -/

section
variable {K : Nf} (E : Env K)

private theorem bindM {β γ : Type} (m : M β) (f : β → M γ) (s : Mem) :
    (m >>= f) s = (m s).bind fun p => f p.1 p.2 := by
  show (match m s with
    | .ok (a, s') => f a s'
    | .running => .running
    | .abort => .abort
    | .throw w => .throw w
    | .ub => .ub) = _
  cases m s <;> rfl

private theorem pureM {β : Type} (b : β) (s : Mem) : (pure b : M β) s = .ok (b, s) := rfl

/-- the array after the terms `l` were written from the place `i` on -/
theorem cfracFrom_spec (rem : Reg) (n : ℤ) : ∀ (m : ℕ) (A B : List ℤ) (s : Mem), n = (A.length + m : ℕ) →
    m ≤ B.length →
    cfracFrom E rem n m A.length (A ++ B) s =
      (E.cfracLoop rem m s).bind fun r =>
        .ok ((((A.length + r.1.length : ℕ) : ℤ), A ++ r.1 ++ B.drop r.1.length), r.2) := by
  intro m
  induction m with
  | zero =>
    intro A B s hn _
    show Res.ok ((n, A ++ B), s) = _
    simp only [Env.cfracLoop]
    show _ = Res.ok ((((A.length + ([] : List ℤ).length : ℕ) : ℤ), A ++ [] ++ B.drop ([] : List ℤ).length), s)
    simp [hn]
  | succ m ih =>
    intro A B s hn hB
    obtain ⟨b, B, rfl⟩ := List.exists_cons_of_ne_nil (l := B) (by rintro rfl; simp at hB)
    simp only [cfracFrom, Env.cfracLoop, bindM]
    rcases E.floor rem s with ⟨z, s₁⟩ | _ | _ | _ | _
    · simp only [Res.bind]
      have h1 : lift (wr (A ++ b :: B) A.length z) s₁ = .ok (A ++ z :: B, s₁) := by
        rw [lift, wr_mid A B b z _ rfl]; rfl
      have h2 : lift (rd (A ++ z :: B) A.length) s₁ = .ok (z, s₁) := by
        rw [lift, rd_mid A B z _ rfl]; rfl
      rw [h1]
      simp only [Res.bind]
      rw [h2]
      simp only [Res.bind]
      rcases E.subZ rem rem z s₁ with ⟨_, s₂⟩ | _ | _ | _ | _
      · simp only [Res.bind]
        rcases E.isZero rem s₂ with ⟨b', s₃⟩ | _ | _ | _ | _
        · cases b'
          · simp only [Bool.false_eq_true, if_false, bindM]
            rcases E.inv rem rem s₃ with ⟨_, s₄⟩ | _ | _ | _ | _
            · simp only [Res.bind]
              have h3 := ih (A ++ [z]) B s₄ (by rw [hn]; simp; omega) (by simpa using hB)
              simp only [List.append_assoc, List.cons_append, List.nil_append, List.length_append,
                List.length_cons, List.length_nil, zero_add, Nat.cast_add, Nat.cast_one] at h3
              rw [h3]
              rcases E.cfracLoop rem m s₄ with ⟨l, s₅⟩ | _ | _ | _ | _
              · simp [Res.bind, pureM]
                omega
              all_goals rfl
            all_goals rfl
          · simp [Res.bind, pureM]
        all_goals rfl
      all_goals rfl
    all_goals rfl

theorem getCfrac_eq (c : List ℤ) (rem a : Reg) (n : ℕ) (s : Mem) (hn : n ≤ c.length) :
    getCfrac E c rem a n s =
      (E.getCfrac rem a n s).bind fun r => .ok ((((r.1.length : ℕ) : ℤ), r.1 ++ c.drop r.1.length), r.2) := by
  unfold getCfrac Env.getCfrac
  simp only [bindM]
  rcases E.set rem a s with ⟨_, s₁⟩ | _ | _ | _ | _
  · simp only [Res.bind]
    rcases E.isZero rem s₁ with ⟨b, s₂⟩ | _ | _ | _ | _
    · cases b
      · simp only [Bool.false_eq_true, if_false]
        have := cfracFrom_spec E rem n n [] c s₂ (by simp) hn
        simpa [Res.bind] using this
      · simp [pureM]
    all_goals rfl
  all_goals rfl

end

/-! ## Random fields -/

theorem renfRandtest_spec (A : ArbOps) (F : Scale2) (f0 : ℤ) (hf : |f0| ≤ 2 ^ 60) (junk kmem : ℕ → List ℤ)
    (hj : ∀ n, (junk n).length = n) (hk : ∀ n, (kmem n).length = n) (N : List ℤ → ℕ) (nd : Bool)
    (n₀ n₁ n₂ : ℕ) (draws : ℕ → Draw) (pick : ℕ → ℕ) (hpick : ∀ n, 0 < n → pick n < n) (len prec : ℤ)
    (hd : ∀ p, drawLoop N draws n₀ 0 = .ok p → toPoly p ≠ 0 ∧ InMemory p) :
    renfRandtest A F f0 junk kmem N nd n₀ n₁ n₂ draws pick len prec =
      EAntic.renfRandtest A F f0 N nd n₀ n₁ n₂ draws pick len prec := by
  unfold renfRandtest EAntic.renfRandtest
  by_cases hlen : len ≤ 1
  · rw [if_pos hlen, if_pos hlen]
    rfl
  · rw [if_neg hlen, if_neg hlen]
    rcases hp : drawLoop N draws n₀ 0 with p | _ | _ | _ | _
    · obtain ⟨h1, h2⟩ := hd p hp
      simp only [Res.bind, Res.ok_bind]
      have h3 := allCount_lt_length F f0 p h1
      have hroom : Room ⟨none, 0, some (vecInit (p.length : ℤ)), some (kmem p.length), 0⟩ 0 0
          (allCount F f0 p) := by
        refine ⟨by simp, ?_, ?_⟩
        · intro c hc; simp only [Option.some.injEq] at hc; subst hc; simp [vecInit]; omega
        · intro c hc; simp only [Option.some.injEq] at hc; subst hc
          rw [hk]; omega
      rw [isolate_spec F f0 hf junk hj n₁ _ p h1 h2 hroom]
      rcases isolateRealRoots F f0 n₁ p with q | _ | _ | _ | _
      · simp only [Res.bind, Res.ok_bind, Res.pure_eq]
        have e2 : (outIs ⟨none, 0, some (vecInit (p.length : ℤ)), some (kmem p.length), 0⟩ 0 0 q.1 q.2).nIv =
            q.2.length := by simp [outIs]
        have e3 : (outIs ⟨none, 0, some (vecInit (p.length : ℤ)), some (kmem p.length), 0⟩ 0 0 q.1 q.2).cArr.getD []
            = q.2.map Prod.fst ++ (vecInit (p.length : ℤ)).drop q.2.length := by
          simp [outIs, written_zero]
        have e4 : (outIs ⟨none, 0, some (vecInit (p.length : ℤ)), some (kmem p.length), 0⟩ 0 0 q.1 q.2).kArr.getD []
            = q.2.map Prod.snd ++ (kmem p.length).drop q.2.length := by
          simp [outIs, written_zero]
        rw [e2, e3, e4]
        by_cases hq : q.2.length = 0
        · rw [if_pos (by simpa using hq), if_pos hq]
          rfl
        · rw [if_neg (by simpa using hq), if_neg hq]
          have hi := hpick q.2.length (by omega)
          rw [Int.toNat_natCast]
          generalize pick q.2.length = i at hi ⊢
          rw [rd_nat _ i (by simp; omega), rd_nat _ i (by simp; omega)]
          simp only [Res.ok_bind]
          rw [List.getElem_append_left (by simpa using hi), List.getElem_append_left (by simpa using hi),
            List.getElem_map, List.getElem_map, List.getD_eq_getElem _ _ hi]
          rcases arbFromInterval q.2[i] (fmpzBits q.2[i].1 + max q.2[i].2 0 + 2) with e | _ | _ | _ | _ <;> rfl
      all_goals rfl
    all_goals rfl

end EAntic.Arrays
