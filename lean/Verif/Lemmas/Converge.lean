import Verif.Spec.Converge
import Verif.Lemmas.Query
import Verif.Lemmas.FpArb
import Mathlib.Algebra.Order.Field.Power

/-! # Termination of the queries -/

namespace EAntic

open M

/-! ## Total correctness rules -/

/-- `m` returns from every memory satisfying `Pre`, and then `Post` holds. -/
def Total {α : Type} (Pre : Mem → Prop) (m : M α) (Post : α → Mem → Prop) : Prop :=
  ∀ s, Pre s → ∃ a s', m s = .ok (a, s') ∧ Post a s'

namespace Total

variable {α β σ : Type} {Pre : Mem → Prop} {Post : α → Mem → Prop}

theorem bind {m : M α} {f : α → M β} {R : β → Mem → Prop} (Q : α → Mem → Prop)
    (h1 : Total Pre m Q) (h2 : ∀ a, Total (Q a) (f a) R) : Total Pre (m >>= f) R := by
  intro s hs
  obtain ⟨a, s₁, e1, hq⟩ := h1 s hs
  obtain ⟨b, s₂, e2, hr⟩ := h2 a s₁ hq
  exact ⟨b, s₂, M.bind_ok.2 ⟨a, s₁, e1, e2⟩, hr⟩

theorem pure' {a : α} (h : ∀ s, Pre s → Post a s) : Total Pre (pure a) Post :=
  fun s hs => ⟨a, s, rfl, h s hs⟩

theorem read {r : Reg} {f : Elem → M α} (h : ∀ e, Total (fun s => Pre s ∧ s.heap r = e) (f e) Post) :
    Total Pre (M.read r >>= f) Post := fun s hs => by
  obtain ⟨a, s', e, h⟩ := h (s.heap r) s ⟨hs, rfl⟩
  exact ⟨a, s', M.bind_ok.2 ⟨_, _, rfl, e⟩, h⟩

theorem field {f : Field → M α} (h : ∀ e, Total (fun s => Pre s ∧ s.fld = e) (f e) Post) :
    Total Pre (M.field >>= f) Post := fun s hs => by
  obtain ⟨a, s', e, h⟩ := h s.fld s ⟨hs, rfl⟩
  exact ⟨a, s', M.bind_ok.2 ⟨_, _, rfl, e⟩, h⟩

theorem write {r : Reg} {e : Elem} {Q : Unit → Mem → Prop} (h : ∀ s, Pre s → Q () (s.write r e)) :
    Total Pre (M.write r e) Q := fun s hs => ⟨(), _, rfl, h s hs⟩

theorem conseq {Pre' : Mem → Prop} {Post' : α → Mem → Prop} {m : M α} (h : Total Pre' m Post')
    (h1 : ∀ s, Pre s → Pre' s) (h2 : ∀ a s, Post' a s → Post a s) : Total Pre m Post := by
  intro s hs
  obtain ⟨a, s', e, h⟩ := h s (h1 s hs)
  exact ⟨a, s', e, h2 a s' h⟩

theorem ite {c : Prop} [Decidable c] {m m' : M α} (h1 : c → Total Pre m Post)
    (h2 : ¬ c → Total Pre m' Post) : Total Pre (if c then m else m') Post := by
  split_ifs with h
  · exact h1 h
  · exact h2 h

theorem imp {m : M α} {p : Prop} (h : p → Total Pre m Post) (hp : ∀ s, Pre s → p) :
    Total Pre m Post := fun s hs => h (hp s hs) s hs

/-- what partial correctness says of the result -/
theorem and_hoare {m : M α} {Pre' : Mem → Prop} {Post' : α → Mem → Prop} (h : Total Pre m Post)
    (h' : Hoare Pre' m Post') (hp : ∀ s, Pre s → Pre' s) :
    Total Pre m fun a s => Post a s ∧ Post' a s := by
  intro s hs
  obtain ⟨a, s', e, hq⟩ := h s hs
  exact ⟨a, s', e, hq, h' s a s' (hp s hs) e⟩

end Total

/-! ## Convergence of evaluation -/

theorem Ball.Within.mono {b : Ball} {x ε ε' : ℝ} (h : b.Within x ε) (hle : ε ≤ ε') :
    b.Within x ε' := by
  obtain ⟨hx, m, r, hb, hr⟩ := h
  exact ⟨hx, m, r, hb, hr.trans hle⟩

theorem Ball.Within.nonzero {b : Ball} {x ε : ℝ} (h : b.Within x ε) (hε : 2 * ε < |x|) :
    b.containsZero = false := by
  obtain ⟨hx, m, r, rfl, hr⟩ := h
  rw [Ball.mem_fin] at hx
  have h0 : |x| ≤ |(m : ℝ)| + r := by
    rw [abs_le]
    have := neg_abs_le (m : ℝ)
    have := le_abs_self (m : ℝ)
    constructor <;> linarith [hx.1, hx.2]
  simp only [Ball.containsZero, decide_eq_false_iff_not, not_le]
  have : (r : ℝ) < |(m : ℝ)| := by linarith
  exact_mod_cast this

theorem Ball.within_exact (q : ℚ) {ε : ℝ} (h : 0 ≤ ε) : (Ball.exact q).Within q ε :=
  ⟨Ball.mem_exact_self q, q, 0, rfl, by simpa using h⟩

theorem evalArb_conv {A : ArbOps} (hA : A.Convergent) (x : ℝ) (l : List ℤ) :
    ∀ ε : ℝ, 0 < ε → ∃ δ > 0, ∃ P : ℤ, ∀ a p, P ≤ p → Ball.Within a x δ →
      (evalArb A l a p).Within ((toPoly l).eval x) ε := by
  induction l with
  | nil =>
    intro ε hε
    refine ⟨1, one_pos, 0, fun a p _ _ => ?_⟩
    have := Ball.within_exact 0 hε.le
    simpa [evalArb, toPoly] using this
  | cons c l ih =>
    intro ε hε
    have e : (toPoly (c :: l)).eval x = (toPoly l).eval x * x + c := by
      simp [toPoly]; ring
    rw [e]
    obtain ⟨δ₁, h1, P₁, H1⟩ := hA.addFmpz ((toPoly l).eval x * x) c ε hε
    obtain ⟨δ₂, h2, P₂, H2⟩ := hA.mul ((toPoly l).eval x) x δ₁ h1
    obtain ⟨δ₃, h3, P₃, H3⟩ := ih δ₂ h2
    refine ⟨min δ₂ δ₃, lt_min h2 h3, max P₁ (max P₂ P₃), fun a p hp ha => ?_⟩
    have hp1 : P₁ ≤ p := (le_max_left _ _).trans hp
    have hp2 : P₂ ≤ p := ((le_max_left _ _).trans (le_max_right _ _)).trans hp
    have hp3 : P₃ ≤ p := ((le_max_right _ _).trans (le_max_right _ _)).trans hp
    exact H1 _ _ hp1 (H2 _ _ _ hp2 (H3 a p hp3 (ha.mono (min_le_right _ _)))
      (ha.mono (min_le_left _ _)))

theorem evalBall_conv {K : Nf} {A : ArbOps} (hA : A.Convergent) {α : ℝ} {e : NfElem} (he : e.Wf K)
    (hl : K.isLinear = false) (ε : ℝ) (hε : 0 < ε) :
    ∃ δ > 0, ∃ P : ℤ, ∀ (E : Env K) (f : Field) (p : ℤ), E.A = A → P ≤ p → f.emb.Within α δ →
      (E.evalBall f e p).Within (e.val α) ε := by
  have hd : e.den ≠ 0 := he.den_pos.ne'
  by_cases hq : K.isQuadratic = true
  · obtain ⟨c, d, hc⟩ := List.length_eq_two.1 (he.quadratic hq)
    have hv : e.val α = (α * d + c) / e.den := by
      simp [NfElem.val, realValue, hc, toPoly]; ring
    obtain ⟨δ₁, h1, P₁, H1⟩ := hA.divFmpz (α * d + c) e.den ε hd hε
    obtain ⟨δ₂, h2, P₂, H2⟩ := hA.addFmpz (α * d) c δ₁ h1
    obtain ⟨δ₃, h3, P₃, H3⟩ := hA.mulFmpz α d δ₂ h2
    refine ⟨δ₃, h3, max P₁ (max P₂ P₃), fun E f p hEA hp ha => ?_⟩
    have hp1 : P₁ ≤ p := (le_max_left _ _).trans hp
    have hp2 : P₂ ≤ p := ((le_max_left _ _).trans (le_max_right _ _)).trans hp
    have hp3 : P₃ ≤ p := ((le_max_right _ _).trans (le_max_right _ _)).trans hp
    rw [hv]
    simp only [Env.evalBall, hl, hq, hc, hEA, Bool.false_eq_true, if_false, if_true]
    exact H1 _ _ hp1 (H2 _ _ hp2 (H3 _ _ hp3 ha))
  · obtain ⟨δ₁, h1, P₁, H1⟩ := hA.divFmpz ((toPoly e.num).eval α) e.den ε hd hε
    obtain ⟨δ₂, h2, P₂, H2⟩ := evalArb_conv hA α e.num δ₁ h1
    refine ⟨δ₂, h2, max P₁ P₂, fun E f p hEA hp ha => ?_⟩
    have hp1 : P₁ ≤ p := (le_max_left _ _).trans hp
    have hp2 : P₂ ≤ p := (le_max_right _ _).trans hp
    simp only [Env.evalBall, hl, hq, hEA, Bool.false_eq_true, if_false, evalArbQ, NfElem.val,
      realValue]
    exact H1 _ _ hp1 (H2 _ _ hp2 ha)

/-- the accuracy requested from the refinement becomes small -/
theorem accuracy_small (c δ : ℝ) (hδ : 0 < δ) :
    ∃ P : ℤ, 3 ≤ P ∧ ∀ p, P ≤ p → |c| * (2 : ℝ) ^ (3 - p) ≤ δ := by
  obtain ⟨n, hn⟩ := exists_nat_gt (|c| * 8 / δ)
  refine ⟨n + 3, by omega, fun p hp => ?_⟩
  have h1 : (2 : ℝ) ^ (3 - p) ≤ 2 ^ (-(n : ℤ)) := zpow_le_zpow_right₀ (by norm_num) (by omega)
  have h2 : (n : ℝ) < 2 ^ n := by exact_mod_cast Nat.lt_two_pow_self
  have h3 : |c| * 8 < 2 ^ n * δ := by
    rw [div_lt_iff₀ hδ] at hn
    nlinarith
  have h4 : (2 : ℝ) ^ (-(n : ℤ)) = (2 ^ n)⁻¹ := by rw [zpow_neg, zpow_natCast]
  have h5 : |c| * 2 ^ (-(n : ℤ)) ≤ δ := by
    rw [h4, ← div_eq_mul_inv, div_le_iff₀ (by positivity)]
    nlinarith [abs_nonneg c]
  exact (mul_le_mul_of_nonneg_left h1 (abs_nonneg c)).trans h5

/-! ## The loop of `renf_elem_sgn` -/

variable {K : Nf} {α : ℝ} {I : Field → Prop} {v : Reg → ℝ}

/-- memory in order, with the exact element `e` at `a` -/
def Holds (K : Nf) (α : ℝ) (I : Field → Prop) (v : Reg → ℝ) (a : Reg) (e : NfElem) (s : Mem) :
    Prop := Rep K α I v s ∧ (s.heap a).elem = e

theorem setEvaluation_total {E : Env K} (hE : FieldInv E α I) {a : Reg} {e : NfElem} {f : Field}
    {p : ℤ} (hp : 2 ≤ p) :
    Total (fun s => Holds K α I v a e s ∧ s.fld = f) (E.setEvaluation a p)
      fun _ s => Holds K α I v a e s ∧ s.fld = f ∧ (s.heap a).emb = E.evalBall f e p := by
  intro s hs
  have h0 : guardPrec p = true := by simpa [guardPrec] using hp
  have he : E.setEvaluation a p s =
      .ok ((), s.write a ⟨(s.heap a).elem, E.evalBall s.fld (s.heap a).elem p⟩) := by
    unfold Env.setEvaluation
    rw [if_pos h0]; rfl
  obtain ⟨⟨h1, h2⟩, h3⟩ := hs
  refine ⟨_, _, he, ⟨setEvaluation_spec hE a p s _ _ h1 he, ?_⟩, h3, ?_⟩
  · simp [write_heap, h2]
  · simp [write_heap, h2, h3]

theorem refineField_total {E : Env K} (hE : FieldInv E α I) {a : Reg} {e : NfElem} {p P : ℤ}
    (hR : Refines E.refine α I P) (h3 : 3 ≤ p) (hp : p ≤ P) :
    Total (Holds K α I v a e) (E.refineField p)
      fun _ s => Holds K α I v a e s ∧ s.fld.emb.Within α (|α| * 2 ^ (3 - p)) := by
  intro s hs
  obtain ⟨f', hf, hw⟩ := hR s.fld p hs.1.inv h3 hp
  have he : E.refineField p s = .ok ((), { s with fld := f' }) := by
    show (M.field >>= fun f => M.lift (E.refine f p) >>= M.setField) s = _
    refine M.bind_ok.2 ⟨_, _, rfl, M.bind_ok.2 ⟨f', s, ?_, rfl⟩⟩
    simp only [M.lift, hf]
  exact ⟨_, _, he, ⟨hs.1.setField (hE.refine hs.1.inv hf), hs.2⟩, hw⟩

/-- once the ball is clear of zero the loop stops -/
theorem sgnLoop_done {E : Env K} {a : Reg} {cond prec : ℤ} {n : ℕ} (hn : 1 ≤ n) :
    Total (fun s => (s.heap a).emb.containsZero = false) (M.loop (E.sgnStep a cond) n prec)
      fun _ _ => True := by
  intro s hs
  obtain ⟨n, rfl⟩ := Nat.exists_eq_add_of_le' hn
  refine ⟨(s.heap a).emb.midSgn, s, ?_, trivial⟩
  unfold M.loop
  refine M.bind_ok.2 ⟨.inr (s.heap a).emb.midSgn, s, ?_, rfl⟩
  unfold Env.sgnStep
  refine M.bind_ok.2 ⟨_, _, rfl, ?_⟩
  rw [hs]; rfl

theorem sgnLoop_total {E : Env K} (hE : FieldInv E α I) {a : Reg} {e : NfElem} {cond P Q : ℤ}
    (hev : ∀ f p, P ≤ p → f.emb.Within α (|α| * 2 ^ (3 - p)) →
      (E.evalBall f e (p + cond)).containsZero = false)
    (hR : Refines E.refine α I Q) :
    ∀ (k : ℕ) (prec : ℤ) (n : ℕ), 2 ≤ prec → 2 ≤ prec + cond → P ≤ prec * 2 ^ (k + 1) →
      prec * 2 ^ (k + 1) ≤ Q → k + 2 ≤ n →
      Total (Holds K α I v a e) (M.loop (E.sgnStep a cond) n prec) fun _ _ => True := by
  intro k
  induction k with
  | zero =>
    intro prec n hp hc hP hQ hn
    obtain ⟨n, rfl⟩ := Nat.exists_eq_add_of_le' (show 1 ≤ n by omega)
    unfold M.loop
    refine Total.bind (fun r s => (∃ p, r = .inl p ∧ (s.heap a).emb.containsZero = false) ∨
      ∃ z, r = .inr z) ?_ ?_
    · unfold Env.sgnStep
      refine Total.read fun x => Total.ite (fun hx => ?_) (fun hx => ?_)
      · exact Total.pure' fun s _ => .inr ⟨_, rfl⟩
      · refine Total.bind _ ((refineField_total hE hR (p := prec * 2) (by omega)
          (by simpa using hQ)).conseq (fun s h => h.1) fun _ _ h => h) fun _ => ?_
        refine Total.bind (fun _ s => (s.heap a).emb.containsZero = false) ?_ fun _ =>
          Total.pure' fun s h => .inl ⟨_, rfl, h⟩
        intro s hs
        obtain ⟨_, s', e1, -, -, h3⟩ := setEvaluation_total hE (a := a) (e := e) (f := s.fld)
          (p := prec * 2 + cond) (by omega) s ⟨hs.1, rfl⟩
        refine ⟨_, s', e1, ?_⟩
        show (s'.heap a).emb.containsZero = false
        rw [h3]
        exact hev _ _ (by simpa using hP) hs.2
    · rintro (p | z)
      · refine (sgnLoop_done (a := a) (prec := p) (show 1 ≤ n by omega)).conseq ?_ fun _ _ h => h
        rintro s (⟨q, h, h'⟩ | ⟨z, h⟩)
        · exact h'
        · simp at h
      · exact Total.pure' fun _ _ => trivial
  | succ k ih =>
    intro prec n hp hc hP hQ hn
    obtain ⟨n, rfl⟩ := Nat.exists_eq_add_of_le' (show 1 ≤ n by omega)
    unfold M.loop
    have h2k : (1 : ℤ) ≤ 2 ^ (k + 1) := one_le_pow₀ (by norm_num)
    have hmul : prec * 2 ^ (k + 1 + 1) = prec * 2 * 2 ^ (k + 1) := by ring
    refine Total.bind (fun r s => (r = .inl (prec * 2) ∧ Holds K α I v a e s) ∨
      ∃ z, r = .inr z) ?_ ?_
    · unfold Env.sgnStep
      refine Total.read fun x => Total.ite (fun hx => ?_) (fun hx => ?_)
      · exact Total.pure' fun s _ => .inr ⟨_, rfl⟩
      · refine Total.bind _ ((refineField_total hE hR (p := prec * 2) (by omega)
          (by rw [hmul] at hQ; nlinarith)).conseq (fun s h => h.1) fun _ _ h => h) fun _ => ?_
        refine Total.bind (fun _ s => Holds K α I v a e s) ?_ fun _ =>
          Total.pure' fun s h => .inl ⟨rfl, h⟩
        intro s hs
        obtain ⟨_, s', e1, h1, -, -⟩ := setEvaluation_total hE (a := a) (e := e) (f := s.fld)
          (p := prec * 2 + cond) (by omega) s ⟨hs.1, rfl⟩
        exact ⟨_, s', e1, h1⟩
    · rintro (p | z)
      · refine Total.imp (p := p = prec * 2) ?_ ?_
        · rintro rfl
          refine (ih (prec * 2) n (by omega) (by omega) (by rwa [← hmul]) (by rwa [← hmul])
            (by omega)).conseq ?_ fun _ _ h => h
          rintro s (⟨h, h'⟩ | ⟨z, h⟩)
          · exact h'
          · simp at h
        · rintro s (⟨h, h'⟩ | ⟨z, h⟩)
          · simpa using h
          · simp at h
      · exact Total.pure' fun _ _ => trivial

theorem getCond_total {E : Env K} {a : Reg} {e : NfElem} {f : Field} {c : ℤ}
    (hr : e.isRational K = false) (hc : condNumber e.num f.emb (max f.prec 16) = some c)
    {Pre : Mem → Prop} (hPre : ∀ s, Pre s → (s.heap a).elem = e ∧ s.fld = f) :
    Total Pre (E.getCond a) fun z s => Pre s ∧ z = c := by
  intro s hs
  obtain ⟨h1, h2⟩ := hPre s hs
  refine ⟨c, s, ?_, hs, rfl⟩
  unfold Env.getCond
  refine M.bind_ok.2 ⟨some c, s, ?_, rfl⟩
  unfold Env.elemCond
  refine M.bind_ok.2 ⟨_, _, rfl, M.bind_ok.2 ⟨_, _, rfl, ?_⟩⟩
  rw [h1, h2, hr, hc]; rfl

theorem getCond_rat {E : Env K} {a : Reg} {e : NfElem}
    (hr : e.isRational K = true) {Pre : Mem → Prop} (hPre : ∀ s, Pre s → (s.heap a).elem = e) :
    Total Pre (E.getCond a) fun z s => Pre s ∧ z = 0 := by
  intro s hs
  refine ⟨0, s, ?_, hs, rfl⟩
  unfold Env.getCond
  refine M.bind_ok.2 ⟨some 0, s, ?_, rfl⟩
  unfold Env.elemCond
  refine M.bind_ok.2 ⟨_, _, rfl, M.bind_ok.2 ⟨_, _, rfl, ?_⟩⟩
  rw [hPre s hs, hr]; rfl

theorem rational_of_linear {e : NfElem} (hl : K.isLinear = true) : e.isRational K = true := by
  simp [NfElem.isRational, hl]

theorem val_ne_of_irrational (hK : K.Ok) (hα : K.IsRoot α) {e : NfElem} (he : e.Wf K)
    (hr : e.isRational K = false) : e.val α ≠ 0 := by
  intro h
  have : e.isRational K = true := by
    rw [isRational_iff hK hα he, h]
    exact ⟨0, by simp⟩
  rw [this] at hr; simp at hr

/-- termination of `renf_elem_sgn`; the bounds depend on the element and the field only -/
theorem sgn_total (hK : K.Ok) (hα : K.IsRoot α) {A : ArbOps} (hA : A.Convergent) {e : NfElem}
    (he : e.Wf K) {f : Field} (hf : 2 ≤ f.prec) (hp : EvalOk K f e) :
    ∃ (P : ℤ) (n : ℕ), ∀ (E : Env K) (a : Reg) (v : Reg → ℝ), E.A = A → FieldInv E α I →
      Refines E.refine α I P → n ≤ E.fuel →
      Total (fun s => Holds K α I v a e s ∧ s.fld = f) (E.sgn a) fun _ _ => True := by
  by_cases hr : e.isRational K = true
  · refine ⟨0, 0, fun E a v _ hE _ _ => ?_⟩
    unfold Env.sgn
    refine Total.read fun x => Total.imp (p := x.elem.isRational K = true) ?_ ?_
    · intro hx
      rw [if_pos hx]
      refine Total.ite (fun _ => Total.pure' fun _ _ => trivial) fun _ => Total.ite
        (fun _ => Total.pure' fun _ _ => trivial) fun _ => Total.ite
        (fun _ => Total.pure' fun _ _ => trivial) fun _ => Total.pure' fun _ _ => trivial
    · rintro s ⟨⟨h, h'⟩, rfl⟩
      rw [h.2]; exact hr
  · have hr' : e.isRational K = false := by simpa using hr
    obtain ⟨c, hc, hc2⟩ := hp.resolve_left hr
    have hl : K.isLinear = false := by
      by_contra hl
      exact hr (rational_of_linear (by simpa using hl))
    have hv : e.val α ≠ 0 := val_ne_of_irrational hK hα he hr'
    obtain ⟨δ, hδ, P₁, H1⟩ := evalBall_conv hA (α := α) he hl (|e.val α| / 4) (by positivity)
    obtain ⟨P₂, h3, H2⟩ := accuracy_small α δ hδ
    set prec := max f.prec f.emb.relAccuracyBits with hprec
    have hp2 : 2 ≤ prec := hf.trans (le_max_left _ _)
    set P := max P₂ (P₁ - c) with hP
    set k := P.toNat with hk
    have hk' : P ≤ prec * 2 ^ (k + 1) := by
      have h1 : P ≤ k := Int.self_le_toNat P
      have h2 : (k : ℤ) < 2 ^ (k + 1) := by
        have h := (Nat.lt_two_pow_self (n := k)).trans_le (Nat.pow_le_pow_right (by norm_num : 0 < 2)
          (Nat.le_succ k))
        exact_mod_cast h
      nlinarith
    refine ⟨prec * 2 ^ (k + 1), k + 2, fun E a v hEA hE hR hn => ?_⟩
    have hev : ∀ (f : Field) (p : ℤ), P ≤ p → f.emb.Within α (|α| * 2 ^ (3 - p)) →
        (E.evalBall f e (p + c)).containsZero = false := by
      intro f' p hp hw
      have h1 := H1 E f' (p + c) hEA (by have := (le_max_right P₂ (P₁ - c)).trans hp; omega)
        (hw.mono (H2 p ((le_max_left _ _).trans hp)))
      exact h1.nonzero (by have := abs_pos.2 hv; linarith)
    unfold Env.sgn
    refine Total.read fun x => Total.imp (p := x.elem.isRational K = false) ?_ ?_
    swap
    · rintro s ⟨⟨h, h'⟩, rfl⟩
      rw [h.2]; exact hr'
    intro hx
    rw [if_neg (by rw [hx]; simp)]
    refine Total.ite (fun _ => Total.pure' fun _ _ => trivial) fun _ => ?_
    refine Total.bind _ (getCond_total (e := e) (f := f) (c := c) hr' hc
      (Pre := fun s => Holds K α I v a e s ∧ s.fld = f) (fun s h => ⟨h.1.2, h.2⟩) |>.conseq
      (fun s h => h.1) fun _ _ h => h) fun z => ?_
    refine Total.imp (p := z = c) ?_ (fun s h => h.2)
    rintro rfl
    refine Total.bind (fun q s => q = prec ∧ Holds K α I v a e s ∧ s.fld = f) ?_ fun q => ?_
    · unfold Env.startPrec
      refine Total.field fun g => Total.pure' ?_
      rintro s ⟨⟨⟨h1, h2⟩, -⟩, rfl⟩
      exact ⟨by rw [hprec, h2], h1, h2⟩
    refine Total.imp (p := q = prec) ?_ (fun s h => h.1)
    rintro rfl
    refine Total.bind (fun _ => Holds K α I v a e)
      ((setEvaluation_total hE (e := e) (f := f) hc2).conseq (fun s h => h.2) fun _ _ h => h.1)
      fun _ => ?_
    exact sgnLoop_total hE hev hR k prec E.fuel hp2 hc2 hk' le_rfl hn

/-! ## Comparison -/

/-- memory in order, with the field `f` and the exact elements `e` at `a` and `e'` at `b` -/
def Holds₂ (K : Nf) (α : ℝ) (I : Field → Prop) (v : Reg → ℝ) (f : Field) (a : Reg) (e : NfElem)
    (b : Reg) (e' : NfElem) (s : Mem) : Prop :=
  Rep K α I v s ∧ (s.heap a).elem = e ∧ (s.heap b).elem = e' ∧ s.fld = f

theorem getCond_ok {f : Field} (hf : 2 ≤ f.prec) {e : NfElem} (hp : EvalOk K f e) :
    ∃ c, 2 ≤ max f.prec f.emb.relAccuracyBits + c ∧ ∀ (E : Env K) (a : Reg) (Pre : Mem → Prop),
      (∀ s, Pre s → (s.heap a).elem = e ∧ s.fld = f) →
      Total Pre (E.getCond a) fun z s => Pre s ∧ z = c := by
  by_cases hr : e.isRational K = true
  · refine ⟨0, ?_, fun E a Pre h => getCond_rat hr fun s hs => (h s hs).1⟩
    have := le_max_left f.prec f.emb.relAccuracyBits
    omega
  · obtain ⟨c, h1, h2⟩ := hp.resolve_left hr
    exact ⟨c, h2, fun E a Pre h => getCond_total (by simpa using hr) h1 h⟩

theorem setEvaluation_total₂ {E : Env K} (hE : FieldInv E α I) {a b r : Reg} {e e' : NfElem}
    {f : Field} {p : ℤ} (hp : 2 ≤ p) :
    Total (Holds₂ K α I v f a e b e') (E.setEvaluation r p) fun _ => Holds₂ K α I v f a e b e' := by
  intro s hs
  have h0 : guardPrec p = true := by simpa [guardPrec] using hp
  have he : E.setEvaluation r p s =
      .ok ((), s.write r ⟨(s.heap r).elem, E.evalBall s.fld (s.heap r).elem p⟩) := by
    unfold Env.setEvaluation
    rw [if_pos h0]; rfl
  obtain ⟨h1, h2, h3, h4⟩ := hs
  refine ⟨_, _, he, setEvaluation_spec hE r p s _ _ h1 he, ?_, ?_, h4⟩
  · simp only [write_heap]; split_ifs with h
    · rw [← h]; exact h2
    · exact h2
  · simp only [write_heap]; split_ifs with h
    · rw [← h]; exact h3
    · exact h3

theorem startPrec_total {f : Field} {Pre : Mem → Prop} (h : ∀ s, Pre s → s.fld = f) :
    Total Pre Env.startPrec fun q s => Pre s ∧ q = max f.prec f.emb.relAccuracyBits := by
  unfold Env.startPrec
  refine Total.field fun g => Total.pure' ?_
  rintro s ⟨h1, rfl⟩
  exact ⟨h1, by rw [h s h1]⟩

theorem Total.withTmp {β : Type} {Pre : Mem → Prop} {r : Reg} {body : M β}
    (h : ∀ s, Pre s → ∃ b s', body (s.write r ⟨NfElem.init s.fld.nf, Ball.exact 0⟩) = .ok (b, s')) :
    Total Pre (M.withTmp r body) fun _ _ => True := by
  intro s hs
  obtain ⟨b, s', e⟩ := h s hs
  refine ⟨b, s'.write r (s.heap r), ?_, trivial⟩
  unfold M.withTmp
  exact M.bind_ok.2 ⟨_, _, rfl, M.bind_ok.2 ⟨_, _, rfl, M.bind_ok.2 ⟨_, _, rfl,
    M.bind_ok.2 ⟨_, _, e, rfl⟩⟩⟩⟩

/-- the sign of a rational needs no evaluation -/
theorem sgn_rat {E : Env K} {a : Reg} {Pre : Mem → Prop}
    (h : ∀ s, Pre s → (s.heap a).elem.isRational K = true) :
    Total Pre (E.sgn a) fun _ _ => True := by
  unfold Env.sgn
  refine Total.read fun x => Total.imp (p := x.elem.isRational K = true) ?_ ?_
  · intro hx
    rw [if_pos hx]
    refine Total.ite (fun _ => Total.pure' fun _ _ => trivial) fun _ => Total.ite
      (fun _ => Total.pure' fun _ _ => trivial) fun _ => Total.ite
      (fun _ => Total.pure' fun _ _ => trivial) fun _ => Total.pure' fun _ _ => trivial
  · rintro s ⟨h', rfl⟩
    exact h s h'

theorem init_wf' (hK : K.Ok) {f : Nf} (h : f = K) : (NfElem.init f).Wf K := by
  rw [h]; exact init_wf hK

theorem cmp_total (hK : K.Ok) (hα : K.IsRoot α) {A : ArbOps} (hA : A.Convergent) {N : NfOps K}
    {e e' : NfElem} (he : e.Wf K) (he' : e'.Wf K) {f : Field} (hf : 2 ≤ f.prec)
    (hp : EvalOk K f e) (hp' : EvalOk K f e')
    (hd : ∀ d, d.Wf K → d.val α = e.val α - e'.val α → EvalOk K f d) :
    ∃ (P : ℤ) (n : ℕ), ∀ (E : Env K) (a b : Reg) (v : Reg → ℝ), a ≠ .tmp 0 → b ≠ .tmp 0 →
      E.A = A → E.N = N → FieldInv E α I → Refines E.refine α I P → n ≤ E.fuel →
      Total (Holds₂ K α I v f a e b e') (E.cmp a b) fun _ _ => True := by
  have hw := init_wf hK
  have hdw := N.sub_wf (d := NfElem.init K) he he'
  have hdv := N.sub_val (d := NfElem.init K) he he' hα
  obtain ⟨P, n, H⟩ := sgn_total (I := I) hK hα hA hdw hf (hd _ hdw hdv)
  obtain ⟨c, hc, Hc⟩ := getCond_ok hf hp
  obtain ⟨c', hc', Hc'⟩ := getCond_ok hf hp'
  refine ⟨P, n, fun E a b v ha hb hEA hEN hE hR hn => ?_⟩
  unfold Env.cmp
  refine Total.read fun x => Total.read fun y => ?_
  refine Total.ite (fun _ => Total.pure' fun _ _ => trivial) fun _ => Total.ite
    (fun _ => Total.pure' fun _ _ => trivial) fun _ => Total.ite
    (fun _ => Total.pure' fun _ _ => trivial) fun _ => Total.ite (fun hr => ?_) fun _ => ?_
  · rw [Bool.and_eq_true] at hr
    refine Total.ite (fun _ => ?_) fun _ => Total.ite (fun _ => ?_) fun _ =>
      Total.pure' fun _ _ => trivial
    · refine Total.bind (fun _ _ => True) (sgn_rat ?_) fun _ => Total.pure' fun _ _ => trivial
      rintro s ⟨⟨h, rfl⟩, rfl⟩; exact hr.2
    · refine sgn_rat ?_
      rintro s ⟨⟨h, rfl⟩, rfl⟩; exact hr.1
  · refine Total.bind _ ((startPrec_total (Pre := Holds₂ K α I v f a e b e') (f := f)
      fun s h => h.2.2.2).conseq (fun s h => h.1.1) fun _ _ h => h) fun q => ?_
    refine Total.imp (p := q = max f.prec f.emb.relAccuracyBits) ?_ (fun s h => h.2)
    intro hq
    refine Total.bind _ ((Hc E a (Holds₂ K α I v f a e b e') fun s h => ⟨h.2.1, h.2.2.2⟩).conseq
      (fun s h => h.1) fun _ _ h => h) fun z => ?_
    refine Total.imp (p := z = c) ?_ (fun s h => h.2)
    intro hz
    refine Total.bind _ ((setEvaluation_total₂ hE (by rw [hq, hz]; exact hc)).conseq
      (fun s h => h.1) fun _ _ h => h) fun _ => ?_
    refine Total.bind _ (Hc' E b (Holds₂ K α I v f a e b e') fun s h => ⟨h.2.2.1, h.2.2.2⟩)
      fun z' => ?_
    refine Total.imp (p := z' = c') ?_ (fun s h => h.2)
    intro hz'
    refine Total.bind _ ((setEvaluation_total₂ hE (by rw [hq, hz']; exact hc')).conseq
      (fun s h => h.1) fun _ _ h => h) fun _ => ?_
    refine Total.read fun x => Total.read fun y => ?_
    refine Total.ite (fun _ => Total.pure' fun _ _ => trivial) fun _ => Total.ite
      (fun _ => Total.pure' fun _ _ => trivial) fun _ => Total.withTmp ?_
    rintro s ⟨⟨⟨h1, h2, h3, h4⟩, -⟩, -⟩
    have hnf : s.fld.nf = K := hE.nf h1.inv
    set s₁ := s.write (.tmp 0) ⟨NfElem.init s.fld.nf, Ball.exact 0⟩ with hs₁
    have r1 : Rep K α I (upd v (.tmp 0) 0) s₁ := by
      refine h1.write (init_wf' hK hnf) ?_ (Ball.mem_exact.2 (by simp))
      rw [hnf]; exact init_val
    have q1 : (s₁.heap a).elem = e := by simp [hs₁, write_heap, ha, h2]
    have q2 : (s₁.heap b).elem = e' := by simp [hs₁, write_heap, hb, h3]
    have q3 : (s₁.heap (.tmp 0)).elem = NfElem.init K := by simp [hs₁, write_heap, hnf]
    set s₂ := s₁.write (.tmp 0) ⟨E.N.sub (s₁.heap (.tmp 0)).elem (s₁.heap a).elem
      (s₁.heap b).elem, E.A.sub (s₁.heap a).emb (s₁.heap b).emb s₁.fld.prec⟩ with hs₂
    have run : E.sub (.tmp 0) a b s₁ = .ok ((), s₂) := rfl
    have r2 := sub_spec hE (.tmp 0) a b s₁ _ _ r1 run
    have q4 : (s₂.heap (.tmp 0)).elem = N.sub (NfElem.init K) e e' := by
      simp only [hs₂, write_heap, if_true, q1, q2, q3, hEN]
    obtain ⟨z, s₃, e3, -⟩ := H E (.tmp 0) _ hEA hE hR hn s₂ ⟨⟨r2, q4⟩, h4⟩
    exact ⟨z, s₃, M.bind_ok.2 ⟨_, _, run, e3⟩⟩

theorem cmpQ_total (hK : K.Ok) (hα : K.IsRoot α) {A : ArbOps} (hA : A.Convergent) {N : NfOps K}
    {e : NfElem} (he : e.Wf K) {f : Field} (hf : 2 ≤ f.prec) {c : ℚ} (hp : EvalOk K f e)
    (hd : ∀ d, d.Wf K → d.val α = e.val α - c → EvalOk K f d) :
    ∃ (P : ℤ) (n : ℕ), ∀ (E : Env K) (a : Reg) (v : Reg → ℝ) (nd : Bool), a ≠ .tmp 1 →
      E.A = A → E.N = N → FieldInv E α I → Refines E.refine α I P → n ≤ E.fuel →
      Total (Holds₂ K α I v f a e a e) (E.cmpQ a c nd) fun _ _ => True := by
  have hw := N.set_wf (d := NfElem.init K) he
  have hv := N.set_val (d := NfElem.init K) he hα
  set d := N.subQ (N.set (NfElem.init K) e) (N.set (NfElem.init K) e) c with hd0
  have hdw : d.Wf K := N.subQ_wf hw
  have hdv : d.val α = e.val α - c := by rw [hd0, N.subQ_val hw hα, hv]
  obtain ⟨P₁, n₁, H1⟩ := sgn_total (I := I) hK hα hA he hf hp
  obtain ⟨P₂, n₂, H2⟩ := sgn_total (I := I) hK hα hA hdw hf (hd _ hdw hdv)
  obtain ⟨k, hk, Hk⟩ := getCond_ok hf hp
  refine ⟨max P₁ P₂, max n₁ n₂, fun E a v nd ha hEA hEN hE hR hn => ?_⟩
  have hR1 : Refines E.refine α I P₁ := fun g p hg h3 hp => hR g p hg h3 (hp.trans (le_max_left _ _))
  have hR2 : Refines E.refine α I P₂ := fun g p hg h3 hp => hR g p hg h3 (hp.trans (le_max_right _ _))
  unfold Env.cmpQ
  refine Total.read fun x => ?_
  refine Total.ite (fun _ => ?_) fun _ => Total.ite (fun _ => Total.pure' fun _ _ => trivial)
    fun _ => Total.ite (fun _ => Total.pure' fun _ _ => trivial) fun _ => ?_
  · refine (H1 E a v hEA hE hR1 (le_trans (le_max_left _ _) hn)).conseq ?_ fun _ _ h => h
    rintro s ⟨⟨h1, h2, h3, h4⟩, -⟩
    exact ⟨⟨h1, h2⟩, h4⟩
  · refine Total.field fun g => ?_
    refine Total.ite (fun _ => Total.pure' fun _ _ => trivial) fun _ => ?_
    refine Total.bind _ ((Hk E a (Holds₂ K α I v f a e a e) fun s h => ⟨h.2.1, h.2.2.2⟩).conseq
      (fun s h => h.1.1) fun _ _ h => h) fun z => ?_
    refine Total.imp (p := z = k) ?_ (fun s h => h.2)
    intro hz
    refine Total.bind _ ((startPrec_total (Pre := Holds₂ K α I v f a e a e) (f := f)
      fun s h => h.2.2.2).conseq (fun s h => h.1) fun _ _ h => h) fun q => ?_
    refine Total.imp (p := q = max f.prec f.emb.relAccuracyBits) ?_ (fun s h => h.2)
    intro hq
    refine Total.ite (fun h => ?_) fun _ => ?_
    · exfalso
      rw [Bool.and_eq_true, decide_eq_true_eq] at h
      rw [← hq, ← hz] at hk
      omega
    refine Total.bind _ ((setEvaluation_total₂ hE (by rw [hq, hz]; exact hk)).conseq
      (fun s h => h.1) fun _ _ h => h) fun _ => ?_
    refine Total.read fun x => Total.ite (fun _ => Total.pure' fun _ _ => trivial) fun _ =>
      Total.withTmp ?_
    rintro s ⟨⟨h1, h2, h3, h4⟩, -⟩
    have hnf : s.fld.nf = K := hE.nf h1.inv
    set s₁ := s.write (.tmp 1) ⟨NfElem.init s.fld.nf, Ball.exact 0⟩ with hs₁
    have r1 : Rep K α I (upd v (.tmp 1) 0) s₁ := by
      refine h1.write (init_wf' hK hnf) ?_ (Ball.mem_exact.2 (by simp))
      rw [hnf]; exact init_val
    have q1 : (s₁.heap a).elem = e := by simp [hs₁, write_heap, ha, h2]
    have q3 : (s₁.heap (.tmp 1)).elem = NfElem.init K := by simp [hs₁, write_heap, hnf]
    set s₂ := s₁.write (.tmp 1) ⟨E.N.set (s₁.heap (.tmp 1)).elem (s₁.heap a).elem,
      (s₁.heap a).emb⟩ with hs₂
    have run : E.set (.tmp 1) a s₁ = .ok ((), s₂) := rfl
    have r2 := set_spec hE (.tmp 1) a s₁ _ _ r1 run
    have q4 : (s₂.heap (.tmp 1)).elem = N.set (NfElem.init K) e := by
      simp only [hs₂, write_heap, if_true, q1, q3, hEN]
    set s₃ := s₂.write (.tmp 1) ⟨E.N.subQ (s₂.heap (.tmp 1)).elem (s₂.heap (.tmp 1)).elem c,
      E.A.sub (s₂.heap (.tmp 1)).emb (E.A.setFmpq c s₂.fld.prec) s₂.fld.prec⟩ with hs₃
    have run' : E.subQ (.tmp 1) (.tmp 1) c s₂ = .ok ((), s₃) := rfl
    have r3 := subQ_spec hE (.tmp 1) (.tmp 1) c s₂ _ _ r2 run'
    have q5 : (s₃.heap (.tmp 1)).elem = d := by
      simp only [hs₃, write_heap, if_true, q4, hEN, hd0]
    obtain ⟨z, s₄, e4, -⟩ := H2 E (.tmp 1) _ hEA hE hR2 (le_trans (le_max_right _ _) hn) s₃
      ⟨⟨r3, q5⟩, h4⟩
    exact ⟨z, s₄, M.bind_ok.2 ⟨_, _, run, M.bind_ok.2 ⟨_, _, run', e4⟩⟩⟩

end EAntic
