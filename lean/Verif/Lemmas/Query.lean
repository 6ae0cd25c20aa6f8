import Verif.Lemmas.ElemOps
import Verif.Model.Convert

/-! # The queries return the exact answer and keep all values -/

namespace EAntic

open M

variable {K : Nf} {E : Env K} {α : ℝ} {I : Field → Prop} {v : Reg → ℝ}

theorem sgnR_pos {x : ℝ} (h : 0 < x) : sgnR x = 1 := by simp [sgnR, h]
theorem sgnR_neg {x : ℝ} (h : x < 0) : sgnR x = -1 := by simp [sgnR, h, h.le.not_gt]
theorem sgnR_zero : sgnR 0 = 0 := by simp [sgnR]

theorem sgnR_neg' (x : ℝ) : sgnR (-x) = -sgnR x := by
  rcases lt_trichotomy x 0 with h | h | h
  · rw [sgnR_neg h, sgnR_pos (by linarith)]; rfl
  · simp [h, sgnR_zero]
  · rw [sgnR_pos h, sgnR_neg (by linarith)]

theorem sgnR_div {n : ℤ} {d : ℝ} (hd : 0 < d) : sgnR ((n : ℝ) / d) = n.sign := by
  rcases lt_trichotomy n 0 with h | h | h
  · rw [Int.sign_eq_neg_one_of_neg h]
    exact sgnR_neg (div_neg_of_neg_of_pos (by exact_mod_cast h) hd)
  · simp [h, sgnR_zero]
  · rw [Int.sign_eq_one_of_pos h]
    exact sgnR_pos (div_pos (by exact_mod_cast h) hd)

theorem sgnR_ball {b : Ball} {x : ℝ} (h : x ∈ b) (h0 : b.containsZero = false) :
    b.midSgn = sgnR x := by
  rcases Ball.midSgn_spec h h0 with ⟨h1, h2⟩ | ⟨h1, h2⟩
  · rw [h1, sgnR_pos h2]
  · rw [h1, sgnR_neg h2]

variable (hE : FieldInv E α I)
include hE

theorem refineField_spec (p : ℤ) :
    Hoare (Rep K α I v) (E.refineField p) fun _ => Rep K α I v := by
  unfold Env.refineField
  refine Hoare.field fun f => ?_
  refine Hoare.bind (fun f' s => Rep K α I v s ∧ I f') (Hoare.lift ?_) fun f' => Hoare.setField ?_
  · rintro s a ⟨h, rfl⟩ e
    exact ⟨h, hE.refine h.inv e⟩
  · rintro s ⟨h, hf⟩
    exact h.setField hf

omit hE in
theorem getCond_spec (P : Mem → Prop) (a : Reg) : Hoare P (E.getCond a) fun _ => P := by
  unfold Env.getCond
  refine Hoare.bind (fun _ => P) ?_ ?_
  · unfold Env.elemCond
    refine Hoare.read fun x => Hoare.field fun f => Hoare.ite (fun _ => ?_) (fun _ => ?_) <;>
    exact Hoare.pure' fun s h => h.1.1
  · rintro (_ | c)
    · exact Hoare.ub
    · exact Hoare.pure' fun s h => h

omit hE in
theorem startPrec_spec (P : Mem → Prop) : Hoare P Env.startPrec fun _ => P := by
  unfold Env.startPrec
  exact Hoare.field fun f => Hoare.pure' fun s h => h.1

/-! ## Reading rational elements -/

theorem rat_val {e : NfElem} (he : e.Wf K) (hr : e.isRational K = true)
    (h0 : e.num ≠ []) : e.val α = (e.raw0 : ℝ) / (e.den : ℝ) := by
  rw [val_of_rational hE.ok hE.root he hr, raw0_eq h0]

omit hE in
theorem num_ne_nil {e : NfElem} (he : e.Wf K)
    (h : K.isLinear = true ∨ K.isQuadratic = true ∨ e.num.length ≠ 0) : e.num ≠ [] := by
  rintro h0
  rcases h with h | h | h
  · simpa [h0] using he.linear h
  · simpa [h0] using he.quadratic h
  · simp [h0] at h

theorem rat_sign {e : NfElem} (he : e.Wf K) (hr : e.isRational K = true)
    (h0 : e.num ≠ []) : e.raw0.sign = sgnR (e.val α) := by
  rw [rat_val hE he hr h0, sgnR_div]
  exact_mod_cast he.den_pos

/-! ## Sign -/

theorem sgn_spec (a : Reg) :
    Hoare (Rep K α I v) (E.sgn a) fun z s => Rep K α I v s ∧ z = sgnR (v a) := by
  unfold Env.sgn
  refine Hoare.read fun x => ?_
  refine Hoare.ite (fun hr => ?_) (fun hr => ?_)
  · refine Hoare.ite (fun hl => ?_) (fun hl => Hoare.ite (fun hq => ?_) (fun hq =>
      Hoare.ite (fun h0 => ?_) (fun h0 => ?_)))
    · refine Hoare.pure' ?_
      rintro s ⟨h, rfl⟩
      exact ⟨h, by rw [rat_sign hE (h.wf a) hr (num_ne_nil (h.wf a) (.inl hl)), h.val]⟩
    · refine Hoare.pure' ?_
      rintro s ⟨h, rfl⟩
      exact ⟨h, by rw [rat_sign hE (h.wf a) hr (num_ne_nil (h.wf a) (.inr (.inl hq))), h.val]⟩
    · refine Hoare.pure' ?_
      rintro s ⟨h, rfl⟩
      have h0' : (s.heap a).elem.num = [] := by simpa using h0
      have : v a = 0 := by
        rw [← h.val, NfElem.val, realValue, h0']; simp [toPoly]
      exact ⟨h, by rw [this, sgnR_zero]⟩
    · refine Hoare.pure' ?_
      rintro s ⟨h, rfl⟩
      exact ⟨h, by
        rw [rat_sign hE (h.wf a) hr (num_ne_nil (h.wf a) (.inr (.inr (by simpa using h0)))), h.val]⟩
  · refine Hoare.ite (fun hc => ?_) (fun hc => ?_)
    · refine Hoare.pure' ?_
      rintro s ⟨h, rfl⟩
      exact ⟨h, sgnR_ball (h.enc a) (by simpa using hc)⟩
    · refine Hoare.bind (fun _ => Rep K α I v)
        ((getCond_spec _ a).conseq (fun _ h => h.1) fun _ _ h => h) fun cond => ?_
      refine Hoare.bind _ (startPrec_spec _) fun prec => ?_
      refine Hoare.bind _ (setEvaluation_spec hE a _) fun _ => ?_
      refine Hoare.loop (J := fun _ => Rep K α I v) ?_ _ _
      intro prec
      unfold Env.sgnStep
      refine Hoare.read fun y => Hoare.ite (fun hc => ?_) (fun _ => ?_)
      · refine Hoare.pure' ?_
        rintro s ⟨h, rfl⟩
        exact ⟨h, sgnR_ball (h.enc a) (by simpa using hc)⟩
      · refine Hoare.bind (fun _ => Rep K α I v)
          ((refineField_spec hE _).conseq (fun _ h => h.1) fun _ _ h => h) fun _ => ?_
        refine Hoare.bind _ (setEvaluation_spec hE a _) fun _ => ?_
        exact Hoare.pure' fun s h => h

/-! ## Comparison -/

omit hE in
theorem fmpqCmp_spec {n d n' d' : ℤ} (hd : 0 < d) (hd' : 0 < d') :
    Env.fmpqCmp n d n' d' = sgnR ((n : ℝ) / d - n' / d') := by
  have h1 : (0 : ℝ) < d := by exact_mod_cast hd
  have h2 : (0 : ℝ) < d' := by exact_mod_cast hd'
  have e : (n : ℝ) / d - n' / d' = ((n * d' - n' * d : ℤ) : ℝ) / (d * d' : ℝ) := by
    push_cast; field_simp
  rw [e, sgnR_div (by positivity)]
  rfl

omit hE in
theorem lt_sgn {a b : Ball} {x y : ℝ} (hx : x ∈ a) (hy : y ∈ b) (h : a.lt b = true) :
    -1 = sgnR (x - y) := by
  rw [sgnR_neg]; linarith [Ball.lt_spec hx hy h]

omit hE in
theorem gt_sgn {a b : Ball} {x y : ℝ} (hx : x ∈ a) (hy : y ∈ b) (h : a.gt b = true) :
    1 = sgnR (x - y) := by
  rw [sgnR_pos]; linarith [Ball.lt_spec hy hx h]

theorem nonzero_num {e : NfElem} (he : e.Wf K) (h : e.isZero K = false) : e.num ≠ [] := by
  intro h0
  have : e.val α = 0 := by rw [NfElem.val, realValue, h0]; simp [toPoly]
  rw [← isZero_iff hE.ok hE.root he] at this
  rw [this] at h; simp at h

/-- `a` is not the local variable of `renf_elem_cmp` -/
theorem cmp_spec {a b : Reg} (ha : a ≠ .tmp 0) (hb : b ≠ .tmp 0) :
    Hoare (Rep K α I v) (E.cmp a b) fun z s => Rep K α I v s ∧ z = sgnR (v a - v b) := by
  unfold Env.cmp
  refine Hoare.read fun x => Hoare.read fun y => ?_
  refine Hoare.ite (fun he => ?_) (fun he => Hoare.ite (fun hl => ?_) (fun hl =>
    Hoare.ite (fun hg => ?_) (fun hg => Hoare.ite (fun hr => ?_) (fun hr => ?_))))
  · refine Hoare.pure' ?_
    rintro s ⟨⟨h, rfl⟩, rfl⟩
    rw [equal_iff hE.ok hE.root (h.wf a) (h.wf b), h.val, h.val] at he
    exact ⟨h, by rw [he, sub_self, sgnR_zero]⟩
  · refine Hoare.pure' ?_
    rintro s ⟨⟨h, rfl⟩, rfl⟩
    exact ⟨h, lt_sgn (h.enc a) (h.enc b) hl⟩
  · refine Hoare.pure' ?_
    rintro s ⟨⟨h, rfl⟩, rfl⟩
    exact ⟨h, gt_sgn (h.enc a) (h.enc b) hg⟩
  · rw [Bool.and_eq_true] at hr
    refine Hoare.ite (fun hz => ?_) (fun hz => Hoare.ite (fun hz' => ?_) (fun hz' => ?_))
    · refine Hoare.imp (p := v a = 0) ?_ ?_
      swap
      · rintro s ⟨⟨h, rfl⟩, rfl⟩
        rw [isZero_iff hE.ok hE.root (h.wf a), h.val] at hz; exact hz
      intro h0
      refine Hoare.bind (fun z s => Rep K α I v s ∧ z = sgnR (v b))
        ((sgn_spec hE b).conseq (fun _ h => h.1.1) fun _ _ h => h) fun z => ?_
      refine Hoare.pure' ?_
      rintro s ⟨h, rfl⟩
      exact ⟨h, by rw [h0, zero_sub, sgnR_neg']⟩
    · refine Hoare.imp (p := v b = 0) ?_ ?_
      swap
      · rintro s ⟨⟨h, rfl⟩, rfl⟩
        rw [isZero_iff hE.ok hE.root (h.wf b), h.val] at hz'; exact hz'
      intro h0
      rw [h0, sub_zero]
      exact (sgn_spec hE a).conseq (fun _ h => h.1.1) fun _ _ h => h
    · refine Hoare.pure' ?_
      rintro s ⟨⟨h, rfl⟩, rfl⟩
      refine ⟨h, ?_⟩
      rw [fmpqCmp_spec (h.wf a).den_pos (h.wf b).den_pos,
        ← rat_val hE (h.wf a) hr.1 (nonzero_num hE (h.wf a) (by simpa using hz)),
        ← rat_val hE (h.wf b) hr.2 (nonzero_num hE (h.wf b) (by simpa using hz')), h.val, h.val]
  · refine Hoare.bind (fun _ => Rep K α I v)
      ((startPrec_spec _).conseq (fun _ h => h.1.1) fun _ _ h => h) fun prec => ?_
    refine Hoare.bind _ (getCond_spec _ a) fun ca => ?_
    refine Hoare.bind _ (setEvaluation_spec hE a _) fun _ => ?_
    refine Hoare.bind _ (getCond_spec _ b) fun cb => ?_
    refine Hoare.bind _ (setEvaluation_spec hE b _) fun _ => ?_
    refine Hoare.read fun x => Hoare.read fun y => ?_
    refine Hoare.ite (fun hl => ?_) (fun hl => Hoare.ite (fun hg => ?_) (fun hg => ?_))
    · refine Hoare.pure' ?_
      rintro s ⟨⟨h, rfl⟩, rfl⟩
      exact ⟨h, lt_sgn (h.enc a) (h.enc b) hl⟩
    · refine Hoare.pure' ?_
      rintro s ⟨⟨h, rfl⟩, rfl⟩
      exact ⟨h, gt_sgn (h.enc a) (h.enc b) hg⟩
    · refine (Hoare.withTmp hE (v := v) (Q := fun z w => w = v ∧ z = sgnR (v a - v b))
        (fun s h => h.1.1) ?_).conseq (fun _ h => h) ?_
      swap
      · rintro z s ⟨w, hw, rfl, hz⟩; exact ⟨hw, hz⟩
      refine Hoare.bind _ ((sub_spec hE (.tmp 0) a b).conseq (fun _ h => h.1) fun _ _ h => h)
        fun _ => ?_
      refine (sgn_spec hE (.tmp 0)).conseq (fun _ h => h) ?_
      rintro z s ⟨h, rfl⟩
      rw [upd_upd] at h
      refine ⟨_, h, ?_, ?_⟩
      · rw [upd_upd, upd_self]
      · rw [upd_same, upd_ne _ _ ha, upd_ne _ _ hb]

theorem cmpQ_spec {a : Reg} (ha : a ≠ .tmp 1) (q : ℚ) (nd : Bool) :
    Hoare (Rep K α I v) (E.cmpQ a q nd) fun z s => Rep K α I v s ∧ z = sgnR (v a - q) := by
  unfold Env.cmpQ
  refine Hoare.read fun x => ?_
  refine Hoare.ite (fun hq => ?_) (fun hq => Hoare.ite (fun hz => ?_) (fun hz =>
    Hoare.ite (fun hr => ?_) (fun hr => ?_)))
  · rw [hq]; simp only [Rat.cast_zero, sub_zero]
    exact (sgn_spec hE a).conseq (fun _ h => h.1) fun _ _ h => h
  · refine Hoare.pure' ?_
    rintro s ⟨h, rfl⟩
    rw [isZero_iff hE.ok hE.root (h.wf a), h.val] at hz
    refine ⟨h, ?_⟩
    have e : (q : ℝ) = (q.num : ℝ) / (q.den : ℝ) := by exact_mod_cast (Rat.num_div_den q).symm
    have hd : (0 : ℝ) < q.den := by exact_mod_cast q.den_pos
    rw [hz, zero_sub, sgnR_neg', e, sgnR_div hd]
  · refine Hoare.pure' ?_
    rintro s ⟨h, rfl⟩
    refine ⟨h, ?_⟩
    have e : (q : ℝ) = (q.num : ℝ) / ((q.den : ℤ) : ℝ) := by
      push_cast; exact_mod_cast (Rat.num_div_den q).symm
    rw [fmpqCmp_spec (h.wf a).den_pos (by exact_mod_cast q.den_pos),
      ← rat_val hE (h.wf a) hr (nonzero_num hE (h.wf a) (by simpa using hz)), h.val, ← e]
  · refine Hoare.field fun f => ?_
    refine Hoare.ite (fun hc => ?_) (fun hc => ?_)
    · refine Hoare.pure' ?_
      rintro s ⟨⟨h, rfl⟩, rfl⟩
      exact ⟨h, sgnR_ball (E.A.sub_mem (hE.prec h.inv) (h.enc a) (E.A.setFmpq_mem (hE.prec h.inv)))
        (by simpa using hc)⟩
    · refine Hoare.bind (fun _ => Rep K α I v)
        ((getCond_spec _ a).conseq (fun _ h => h.1.1) fun _ _ h => h) fun cond => ?_
      refine Hoare.bind (fun prec s => Rep K α I v s ∧ 2 ≤ prec) ?_ fun prec => ?_
      · unfold Env.startPrec
        refine Hoare.field fun f => Hoare.pure' ?_
        rintro s ⟨h, rfl⟩
        exact ⟨h, le_trans (hE.prec h.inv) (le_max_left _ _)⟩
      refine Hoare.ite (fun _ => Hoare.abort) fun _ => ?_
      refine Hoare.imp (p := 2 ≤ prec) ?_ (fun s h => h.2)
      intro hp
      refine Hoare.bind _ ((setEvaluation_spec hE a _).conseq (fun _ h => h.1) fun _ _ h => h)
        fun _ => ?_
      refine Hoare.read fun x => Hoare.ite (fun hc => ?_) (fun _ => ?_)
      · refine Hoare.pure' ?_
        rintro s ⟨h, rfl⟩
        exact ⟨h, sgnR_ball (E.A.sub_mem hp (h.enc a) (E.A.setFmpq_mem hp)) (by simpa using hc)⟩
      · refine (Hoare.withTmp hE (v := v) (Q := fun z w => w = v ∧ z = sgnR (v a - q))
          (fun s h => h.1) ?_).conseq (fun _ h => h) ?_
        swap
        · rintro z s ⟨w, hw, rfl, hz⟩; exact ⟨hw, hz⟩
        refine Hoare.bind _ ((set_spec hE (.tmp 1) a).conseq (fun _ h => h.1) fun _ _ h => h)
          fun _ => ?_
        refine Hoare.bind _ (subQ_spec hE (.tmp 1) (.tmp 1) q) fun _ => ?_
        refine (sgn_spec hE (.tmp 1)).conseq (fun _ h => h) ?_
        rintro z s ⟨h, rfl⟩
        rw [upd_upd, upd_upd] at h
        refine ⟨_, h, ?_, ?_⟩
        · rw [upd_upd, upd_self]
        · rw [upd_same, upd_same, upd_ne _ _ ha]

end EAntic
