import Verif.Lemmas.Hoare
import Verif.Lemmas.NfInst

/-! # The element operations compute the exact value and keep the enclosure -/

namespace EAntic

open M

variable {K : Nf} {E : Env K} {α : ℝ} {I : Field → Prop} {v : Reg → ℝ}

/-! ## Evaluation of polynomials on balls -/

theorem evalArb_mem (A : ArbOps) {p : ℤ} (hp : 2 ≤ p) {x : ℝ} {a : Ball} (hx : x ∈ a)
    (l : List ℤ) : (toPoly l).eval x ∈ evalArb A l a p := by
  induction l with
  | nil => exact Ball.mem_exact.2 (by simp [toPoly])
  | cons c l ih =>
    have e : (toPoly (c :: l)).eval x = (toPoly l).eval x * x + c := by
      simp [toPoly]; ring
    rw [e]
    exact A.addFmpz_mem hp (A.mul_mem hp ih hx)

theorem evalArbQ_mem (A : ArbOps) {p : ℤ} (hp : 2 ≤ p) {x : ℝ} {a : Ball} (hx : x ∈ a)
    (l : List ℤ) {d : ℤ} (hd : d ≠ 0) : realValue x l d ∈ evalArbQ A l d a p :=
  A.divFmpz_mem hp hd (evalArb_mem A hp hx l)

theorem evalBall_mem {f : Field} (hf : α ∈ f.emb) {e : NfElem} (he : e.Wf K) {p : ℤ} (hp : 2 ≤ p) :
    e.val α ∈ E.evalBall f e p := by
  have hd : e.den ≠ 0 := he.den_pos.ne'
  unfold Env.evalBall
  split_ifs with h1 h2
  · obtain ⟨c, hc⟩ := List.length_eq_one_iff.1 (he.linear h1)
    have : e.val α = (c : ℝ) / e.den := by simp [NfElem.val, realValue, hc, toPoly]
    rw [this, hc]
    exact E.A.fmpzDivFmpz_mem hp hd
  · obtain ⟨c, d, hc⟩ := List.length_eq_two.1 (he.quadratic h2)
    have : e.val α = (α * d + c) / e.den := by
      simp [NfElem.val, realValue, hc, toPoly]; ring
    rw [this, hc]
    exact E.A.divFmpz_mem hp hd (E.A.addFmpz_mem hp (E.A.mulFmpz_mem hp hf))
  · exact evalArbQ_mem E.A hp hf _ hd

/-! ## Setters -/

variable (hE : FieldInv E α I)
include hE

theorem zero_wf (d : NfElem) : (d.zero K).Wf K := by
  have h := init_wf hE.ok
  unfold NfElem.zero
  unfold NfElem.init at h
  split_ifs at h ⊢ with h1 h2
  · exact h
  · exact h
  all_goals exact ⟨h.1, h.2, h.3, h.4, h.5⟩

omit hE in
theorem zero_val (d : NfElem) : (d.zero K).val α = 0 := by
  unfold NfElem.zero NfElem.val realValue
  split_ifs <;> simp [toPoly]

theorem zero_spec (a : Reg) : Hoare (Rep K α I v) (E.zero a) fun _ => Rep K α I (upd v a 0) := by
  refine Hoare.read fun x => Hoare.write ?_
  rintro s ⟨h, rfl⟩
  exact h.write (zero_wf hE _) (zero_val _) (Ball.mem_exact.2 (by simp))

theorem one_spec (a : Reg) : Hoare (Rep K α I v) (E.one a) fun _ => Rep K α I (upd v a 1) := by
  refine Hoare.read fun x => Hoare.write ?_
  rintro s ⟨h, rfl⟩
  exact h.write E.N.setQ_wf (by rw [E.N.setQ_val hE.root]; simp) (Ball.mem_exact.2 (by simp))

theorem set_spec (a b : Reg) :
    Hoare (Rep K α I v) (E.set a b) fun _ => Rep K α I (upd v a (v b)) := by
  refine Hoare.read fun x => Hoare.read fun y => Hoare.write ?_
  rintro s ⟨⟨h, rfl⟩, rfl⟩
  exact h.write (E.N.set_wf (h.wf b)) (by rw [E.N.set_val (h.wf b) hE.root, h.val]) (h.enc b)

theorem setZ_spec (a : Reg) (c : ℤ) :
    Hoare (Rep K α I v) (E.setZ a c) fun _ => Rep K α I (upd v a c) := by
  refine Hoare.read fun x => Hoare.write ?_
  rintro s ⟨h, rfl⟩
  exact h.write E.N.setQ_wf (by rw [E.N.setQ_val hE.root]; simp) (Ball.mem_exact.2 (by simp))

theorem setQ_spec (a : Reg) (c : ℚ) :
    Hoare (Rep K α I v) (E.setQ a c) fun _ => Rep K α I (upd v a c) := by
  refine Hoare.read fun x => Hoare.field fun f => Hoare.write ?_
  rintro s ⟨⟨h, rfl⟩, rfl⟩
  exact h.write E.N.setQ_wf (by rw [E.N.setQ_val hE.root]) (E.A.setFmpq_mem (hE.prec h.inv))

theorem setPoly_spec (a : Reg) (n : List ℤ) {d : ℤ} (hd : d ≠ 0) :
    Hoare (Rep K α I v) (E.setPoly a n d) fun _ => Rep K α I (upd v a (realValue α n d)) := by
  refine Hoare.read fun x => Hoare.field fun f => Hoare.write ?_
  rintro s ⟨⟨h, rfl⟩, rfl⟩
  exact h.write (E.N.setPoly_wf hd) (by rw [E.N.setPoly_val hd hE.root])
    (evalArbQ_mem E.A (hE.prec h.inv) (hE.enc h.inv) n hd)

theorem gen_spec (hl : K.isLinear = false) (a : Reg) :
    Hoare (Rep K α I v) (E.gen a) fun _ => Rep K α I (upd v a α) := by
  unfold Env.gen
  refine Hoare.field fun f => ?_
  rw [hl]
  have := setPoly_spec hE (v := v) a [0, 1] (d := 1) (by decide)
  have e : realValue α [0, 1] 1 = α := by simp [realValue, toPoly]
  rw [e] at this
  exact this.conseq (fun s h => h.1) (fun _ _ h => h)

theorem setEvaluation_spec (a : Reg) (p : ℤ) :
    Hoare (Rep K α I v) (E.setEvaluation a p) fun _ => Rep K α I v := by
  unfold Env.setEvaluation
  refine Hoare.ite (fun hp => ?_) (fun _ => Hoare.ub)
  refine Hoare.read fun x => Hoare.field fun f => Hoare.write ?_
  rintro s ⟨⟨h, rfl⟩, rfl⟩
  refine h.rewrite (h.wf a) (h.val a) ?_
  have := evalBall_mem (E := E) (hE.enc h.inv) (h.wf a) (p := p) (by simpa [guardPrec] using hp)
  rwa [h.val] at this

theorem setNfElem_spec (a : Reg) {e : NfElem} (he : e.Wf K) (p : ℤ) :
    Hoare (Rep K α I v) (E.setNfElem a e p) fun _ => Rep K α I (upd v a (e.val α)) := by
  unfold Env.setNfElem Env.setEvaluation
  refine Hoare.read fun x => ?_
  refine Hoare.bind (fun _ s => ∃ s₀, Rep K α I v s₀ ∧ s = s₀.write a ⟨E.N.set x.elem e, x.emb⟩)
    (Hoare.write fun s hs => ⟨s, hs.1, rfl⟩) fun _ => ?_
  refine Hoare.ite (fun hp => ?_) (fun _ => Hoare.ub)
  refine Hoare.read fun x => Hoare.field fun f => Hoare.write ?_
  rintro s ⟨⟨⟨s₀, h, rfl⟩, rfl⟩, rfl⟩
  have hw := E.N.set_wf (d := x.elem) he
  have hv := E.N.set_val (d := x.elem) he hE.root
  have := evalBall_mem (E := E) (hE.enc h.inv) hw (p := p) (by simpa [guardPrec] using hp)
  rw [hv] at this
  have key := h.write (r := a) (e := ⟨E.N.set x.elem e, E.evalBall s₀.fld (E.N.set x.elem e) p⟩) hw hv this
  convert key using 1
  simp only [Mem.write, if_true]
  congr 1
  funext r
  by_cases hr : r = a <;> simp [hr]

theorem swap_spec (a b : Reg) :
    Hoare (Rep K α I v) (E.swap a b) fun _ => Rep K α I (upd (upd v a (v b)) b (v a)) := by
  refine Hoare.read fun x => Hoare.read fun y => ?_
  refine Hoare.imp (p := (x.elem.Wf K ∧ x.elem.val α = v a ∧ v a ∈ x.emb) ∧
    (y.elem.Wf K ∧ y.elem.val α = v b ∧ v b ∈ y.emb)) ?_ ?_
  swap
  · rintro s ⟨⟨h, rfl⟩, rfl⟩
    exact ⟨⟨h.wf a, h.val a, h.enc a⟩, ⟨h.wf b, h.val b, h.enc b⟩⟩
  rintro ⟨⟨x1, x2, x3⟩, ⟨y1, y2, y3⟩⟩
  refine Hoare.bind (fun _ => Rep K α I (upd v a (v b))) (Hoare.write ?_) fun _ => Hoare.write ?_
  · rintro s ⟨⟨h, _⟩, _⟩
    exact h.write y1 y2 y3
  · intro s h
    exact h.write x1 x2 x3

/-! ## Arithmetic -/

theorem neg_spec (a b : Reg) :
    Hoare (Rep K α I v) (E.neg a b) fun _ => Rep K α I (upd v a (-v b)) := by
  refine Hoare.read fun x => Hoare.read fun y => Hoare.write ?_
  rintro s ⟨⟨h, rfl⟩, rfl⟩
  exact h.write (E.N.neg_wf (h.wf b)) (by rw [E.N.neg_val (h.wf b) hE.root, h.val])
    (Ball.neg_mem (h.enc b))

theorem add_spec (a b c : Reg) :
    Hoare (Rep K α I v) (E.add a b c) fun _ => Rep K α I (upd v a (v b + v c)) := by
  refine Hoare.read fun x => Hoare.read fun y => Hoare.read fun z => Hoare.field fun f =>
    Hoare.write ?_
  rintro s ⟨⟨⟨⟨h, rfl⟩, rfl⟩, rfl⟩, rfl⟩
  exact h.write (E.N.add_wf (h.wf b) (h.wf c))
    (by rw [E.N.add_val (h.wf b) (h.wf c) hE.root, h.val, h.val])
    (E.A.add_mem (hE.prec h.inv) (h.enc b) (h.enc c))

theorem sub_spec (a b c : Reg) :
    Hoare (Rep K α I v) (E.sub a b c) fun _ => Rep K α I (upd v a (v b - v c)) := by
  refine Hoare.read fun x => Hoare.read fun y => Hoare.read fun z => Hoare.field fun f =>
    Hoare.write ?_
  rintro s ⟨⟨⟨⟨h, rfl⟩, rfl⟩, rfl⟩, rfl⟩
  exact h.write (E.N.sub_wf (h.wf b) (h.wf c))
    (by rw [E.N.sub_val (h.wf b) (h.wf c) hE.root, h.val, h.val])
    (E.A.sub_mem (hE.prec h.inv) (h.enc b) (h.enc c))

theorem mul_spec (a b c : Reg) :
    Hoare (Rep K α I v) (E.mul a b c) fun _ => Rep K α I (upd v a (v b * v c)) := by
  refine Hoare.read fun x => Hoare.read fun y => Hoare.read fun z => Hoare.field fun f =>
    Hoare.write ?_
  rintro s ⟨⟨⟨⟨h, rfl⟩, rfl⟩, rfl⟩, rfl⟩
  exact h.write (E.N.mul_wf (h.wf b) (h.wf c))
    (by rw [E.N.mul_val (h.wf b) (h.wf c) hE.root, h.val, h.val])
    (E.A.mul_mem (hE.prec h.inv) (h.enc b) (h.enc c))

theorem div_spec (a b c : Reg) :
    Hoare (Rep K α I v) (E.div a b c) fun _ => Rep K α I (upd v a (v b / v c)) := by
  refine Hoare.read fun x => Hoare.read fun y => Hoare.read fun z => Hoare.field fun f => ?_
  refine Hoare.ite (fun _ => Hoare.ub) fun hz => Hoare.write ?_
  rintro s ⟨⟨⟨⟨h, rfl⟩, rfl⟩, rfl⟩, rfl⟩
  have hz' : (s.heap c).elem.isZero K = false := by simpa using hz
  have hc : v c ≠ 0 := by
    intro h0
    exact hz ((isZero_iff hE.ok hE.root (h.wf c)).2 (by rw [h.val, h0]))
  exact h.write (E.N.div_wf (h.wf b) (h.wf c) hz')
    (by rw [E.N.div_val (h.wf b) (h.wf c) hz' hE.root, h.val, h.val])
    (E.A.div_mem (hE.prec h.inv) hc (h.enc b) (h.enc c))

theorem inv_spec (a b : Reg) :
    Hoare (Rep K α I v) (E.inv a b) fun _ => Rep K α I (upd v a (v b)⁻¹) := by
  refine Hoare.read fun x => Hoare.read fun y => Hoare.field fun f => ?_
  refine Hoare.ite (fun _ => Hoare.ub) fun hz => Hoare.write ?_
  rintro s ⟨⟨⟨h, rfl⟩, rfl⟩, rfl⟩
  have hz' : (s.heap b).elem.isZero K = false := by simpa using hz
  have hc : v b ≠ 0 := by
    intro h0
    exact hz ((isZero_iff hE.ok hE.root (h.wf b)).2 (by rw [h.val, h0]))
  exact h.write (E.N.inv_wf (h.wf b) hz')
    (by rw [E.N.inv_val (h.wf b) hz' hE.root, h.val])
    (E.A.inv_mem (hE.prec h.inv) hc (h.enc b))

theorem pow_spec (a b : Reg) (n : ℕ) :
    Hoare (Rep K α I v) (E.pow a b n) fun _ => Rep K α I (upd v a (v b ^ n)) := by
  refine Hoare.read fun x => Hoare.read fun y => Hoare.field fun f => Hoare.write ?_
  rintro s ⟨⟨⟨h, rfl⟩, rfl⟩, rfl⟩
  exact h.write (E.N.pow_wf (h.wf b)) (by rw [E.N.pow_val (h.wf b) hE.root, h.val])
    (E.A.powUi_mem (hE.prec h.inv) (h.enc b))

theorem addZ_spec (a b : Reg) (c : ℤ) :
    Hoare (Rep K α I v) (E.addZ a b c) fun _ => Rep K α I (upd v a (v b + c)) := by
  refine Hoare.read fun x => Hoare.read fun y => Hoare.field fun f => Hoare.write ?_
  rintro s ⟨⟨⟨h, rfl⟩, rfl⟩, rfl⟩
  exact h.write (E.N.addQ_wf (h.wf b)) (by rw [E.N.addQ_val (h.wf b) hE.root, h.val]; simp)
    (E.A.addFmpz_mem (hE.prec h.inv) (h.enc b))

theorem subZ_spec (a b : Reg) (c : ℤ) :
    Hoare (Rep K α I v) (E.subZ a b c) fun _ => Rep K α I (upd v a (v b - c)) := by
  refine Hoare.read fun x => Hoare.read fun y => Hoare.field fun f => Hoare.write ?_
  rintro s ⟨⟨⟨h, rfl⟩, rfl⟩, rfl⟩
  exact h.write (E.N.subQ_wf (h.wf b)) (by rw [E.N.subQ_val (h.wf b) hE.root, h.val]; simp)
    (E.A.subFmpz_mem (hE.prec h.inv) (h.enc b))

theorem mulZ_spec (a b : Reg) (c : ℤ) :
    Hoare (Rep K α I v) (E.mulZ a b c) fun _ => Rep K α I (upd v a (v b * c)) := by
  refine Hoare.read fun x => Hoare.read fun y => Hoare.field fun f => Hoare.write ?_
  rintro s ⟨⟨⟨h, rfl⟩, rfl⟩, rfl⟩
  exact h.write (E.N.mulQ_wf (h.wf b)) (by rw [E.N.mulQ_val (h.wf b) hE.root, h.val]; simp)
    (E.A.mulFmpz_mem (hE.prec h.inv) (h.enc b))

theorem divZ_spec (a b : Reg) (c : ℤ) :
    Hoare (Rep K α I v) (E.divZ a b c) fun _ => Rep K α I (upd v a (v b / c)) := by
  refine Hoare.read fun x => Hoare.read fun y => Hoare.field fun f => ?_
  refine Hoare.ite (fun _ => Hoare.ub) fun hz => Hoare.write ?_
  rintro s ⟨⟨⟨h, rfl⟩, rfl⟩, rfl⟩
  have hz' : (c : ℚ) ≠ 0 := by exact_mod_cast hz
  exact h.write (E.N.divQ_wf (h.wf b) hz')
    (by rw [E.N.divQ_val (h.wf b) hz' hE.root, h.val]; simp)
    (E.A.divFmpz_mem (hE.prec h.inv) hz (h.enc b))

theorem addQ_spec (a b : Reg) (c : ℚ) :
    Hoare (Rep K α I v) (E.addQ a b c) fun _ => Rep K α I (upd v a (v b + c)) := by
  refine Hoare.read fun x => Hoare.read fun y => Hoare.field fun f => Hoare.write ?_
  rintro s ⟨⟨⟨h, rfl⟩, rfl⟩, rfl⟩
  exact h.write (E.N.addQ_wf (h.wf b)) (by rw [E.N.addQ_val (h.wf b) hE.root, h.val])
    (E.A.add_mem (hE.prec h.inv) (h.enc b) (E.A.setFmpq_mem (hE.prec h.inv)))

theorem subQ_spec (a b : Reg) (c : ℚ) :
    Hoare (Rep K α I v) (E.subQ a b c) fun _ => Rep K α I (upd v a (v b - c)) := by
  refine Hoare.read fun x => Hoare.read fun y => Hoare.field fun f => Hoare.write ?_
  rintro s ⟨⟨⟨h, rfl⟩, rfl⟩, rfl⟩
  exact h.write (E.N.subQ_wf (h.wf b)) (by rw [E.N.subQ_val (h.wf b) hE.root, h.val])
    (E.A.sub_mem (hE.prec h.inv) (h.enc b) (E.A.setFmpq_mem (hE.prec h.inv)))

theorem qSub_spec (a : Reg) (c : ℚ) (b : Reg) :
    Hoare (Rep K α I v) (E.qSub a c b) fun _ => Rep K α I (upd v a (c - v b)) := by
  refine Hoare.read fun x => Hoare.read fun y => Hoare.field fun f => Hoare.write ?_
  rintro s ⟨⟨⟨h, rfl⟩, rfl⟩, rfl⟩
  exact h.write (E.N.qSub_wf (h.wf b)) (by rw [E.N.qSub_val (h.wf b) hE.root, h.val])
    (E.A.sub_mem (hE.prec h.inv) (E.A.setFmpq_mem (hE.prec h.inv)) (h.enc b))

theorem mulQ_spec (a b : Reg) (c : ℚ) :
    Hoare (Rep K α I v) (E.mulQ a b c) fun _ => Rep K α I (upd v a (v b * c)) := by
  refine Hoare.read fun x => Hoare.read fun y => Hoare.field fun f => Hoare.write ?_
  rintro s ⟨⟨⟨h, rfl⟩, rfl⟩, rfl⟩
  exact h.write (E.N.mulQ_wf (h.wf b)) (by rw [E.N.mulQ_val (h.wf b) hE.root, h.val])
    (E.A.mul_mem (hE.prec h.inv) (h.enc b) (E.A.setFmpq_mem (hE.prec h.inv)))

theorem divQ_spec (a b : Reg) (c : ℚ) :
    Hoare (Rep K α I v) (E.divQ a b c) fun _ => Rep K α I (upd v a (v b / c)) := by
  refine Hoare.read fun x => Hoare.read fun y => Hoare.field fun f => ?_
  refine Hoare.ite (fun _ => Hoare.ub) fun hz => Hoare.write ?_
  rintro s ⟨⟨⟨h, rfl⟩, rfl⟩, rfl⟩
  exact h.write (E.N.divQ_wf (h.wf b) hz)
    (by rw [E.N.divQ_val (h.wf b) hz hE.root, h.val])
    (E.A.div_mem (hE.prec h.inv) (by exact_mod_cast hz) (h.enc b)
      (E.A.setFmpq_mem (hE.prec h.inv)))

/-- what `renf_elem_fmpq_div(a, b, c)` really computes -/
theorem qDiv_spec (a : Reg) (b : ℚ) (c : Reg) :
    Hoare (Rep K α I v) (E.qDiv a b c) fun _ =>
      Rep K α I (upd v a (if a = c then b / v c else v c * b)) := by
  unfold Env.qDiv
  refine Hoare.bind _ (set_spec hE a c) fun _ => ?_
  refine Hoare.bind _ (inv_spec hE a a) fun _ => ?_
  refine (mulQ_spec hE a c b).conseq (fun _ h => h) fun _ s h => ?_
  rw [upd_upd, upd_upd] at h
  convert h using 2
  split_ifs with hac
  · subst hac; rw [upd_same, upd_same]; ring
  · rw [upd_ne _ _ (Ne.symm hac), upd_ne _ _ (Ne.symm hac)]

end EAntic
