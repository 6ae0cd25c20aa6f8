import Verif.Lemmas.Ends

/-! # Sign, comparison and rounding end -/

namespace EAntic

open M

variable {K : Nf} {α : ℝ} {I : Field → Prop} {v : Reg → ℝ} {A : ArbOps} {N : NfOps K}
  {R : ℕ → Field → ℤ → Res Field} {V : Prop} {s : Mem}

theorem envs_A {k : ℕ} : (envs A N R k).A = A := rfl

theorem Ends.op {β : Type} {m : ℕ → M β} {Pre : Mem → Prop} {Post : β → Mem → Prop}
    (h : ∀ k, m k s = m 0 s) (h0 : ∃ r, m 0 s = .ok r) (h' : Hoare Pre (m 0) Post) (hp : Pre s) :
    Ends V m s Post := by
  obtain ⟨⟨z, s₁⟩, h0⟩ := h0
  exact .ret (h' s z s₁ hp h0) fun k => (h k).trans h0

theorem Ends.withTmp {β : Type} {body : ℕ → M β} {r : Reg}
    (h : Ends V body (s.write r ⟨NfElem.init s.fld.nf, Ball.exact 0⟩) fun _ _ => True) :
    Ends V (fun k => M.withTmp r (body k)) s fun _ _ => True := by
  unfold M.withTmp
  refine Ends.read (Ends.field ?_)
  refine (Ends.ret (m := fun _ => M.write r ⟨NfElem.init s.fld.nf, Ball.exact 0⟩)
    (Post := fun _ s' => s' = s.write r ⟨NfElem.init s.fld.nf, Ball.exact 0⟩) rfl fun _ => rfl).bind ?_
  rintro - s' rfl
  refine h.bind fun z s' _ => ?_
  exact (Ends.ret (m := fun _ => M.write r (s.heap r)) (Post := fun _ _ => True) trivial
    fun _ => rfl).bind fun _ _ _ => Ends.pure' trivial

theorem tmp_rep (hE : FieldInv (envs A N R 0) α I) (hs : Rep K α I v s) {r : Reg} :
    Rep K α I (upd v r 0) (s.write r ⟨NfElem.init s.fld.nf, Ball.exact 0⟩) := by
  have hnf : s.fld.nf = K := hE.nf hs.inv
  refine hs.write (init_wf' hE.ok hnf) ?_ (Ball.mem_exact.2 (by simp))
  rw [hnf]; exact init_val

/-- the evaluations in a loop converge -/
theorem conv_eval (hA : A.Convergent) {e : NfElem} (he : e.Wf K) (hl : K.isLinear = false) (cond : ℤ)
    {ε : ℝ} (hε : 0 < ε) :
    ∃ P : ℤ, ∀ f p, P ≤ p → f.emb.Within α (|α| * 2 ^ (3 - p)) →
      ((envs A N R 0).evalBall f e (p + cond)).Within (e.val α) ε := by
  obtain ⟨δ, hδ, P₁, H1⟩ := evalBall_conv hA (α := α) he hl ε hε
  obtain ⟨P₂, -, H2⟩ := accuracy_small α δ hδ
  refine ⟨max P₂ (P₁ - cond), fun f p hp hw => H1 _ f _ rfl ?_ (hw.mono (H2 p ((le_max_left _ _).trans hp)))⟩
  have := (le_max_right P₂ (P₁ - cond)).trans hp
  omega

/-! ## Sign -/

theorem sgnStep_eq (E : Env K) (a : Reg) (cond : ℤ) :
    E.sgnStep a cond = checkStep E a cond
      (fun b _ => if !b.containsZero then some b.midSgn else none) := by
  funext prec
  unfold Env.sgnStep checkStep
  congr 1
  funext x
  beta_reduce
  cases x.emb.containsZero <;> rfl

theorem sgn_ends (hA : A.Convergent) (hE : ∀ k, FieldInv (envs A N R k) α I)
    (hR : RefinesOr R I) {a : Reg} (hl : LegalAt K α I (v a)) (hs : Rep K α I v s) :
    Ends V (fun k => (envs A N R k).sgn a) s fun z s' => Rep K α I v s' ∧ z = sgnR (v a) := by
  refine ((?_ : Ends V _ s fun _ _ => True).and_hoare (fun k => sgn_spec (hE k) a) hs).mono
    fun z s' h => h.2
  unfold Env.sgn
  refine Ends.read (Ends.ite (fun hr => ?_) fun hr => Ends.ite (fun _ => Ends.pure' trivial) fun _ => ?_)
  · exact Ends.ite (fun _ => Ends.pure' trivial) fun _ => Ends.ite (fun _ => Ends.pure' trivial)
      fun _ => Ends.ite (fun _ => Ends.pure' trivial) fun _ => Ends.pure' trivial
  have hr' : (s.heap a).elem.isRational K = false := by simpa using hr
  have hlin : K.isLinear = false := by
    by_contra hl
    exact hr (rational_of_linear (by simpa using hl))
  have hv : (s.heap a).elem.val α ≠ 0 := val_ne_of_irrational (hE 0).ok (hE 0).root (hs.wf a) hr'
  have hf := (hE 0).prec hs.inv
  refine (getCond_ends hl hs rfl hf).bind ?_
  rintro c t ⟨ht, hc⟩
  rw [ht]
  refine startPrec_ends.bind ?_
  rintro p t ⟨ht, hp⟩
  rw [ht]
  rw [← hp] at hc
  have hp2 : 2 ≤ p := by rw [hp]; exact hf.trans (le_max_left _ _)
  refine (setEvaluation_ends hE hc hs).bind ?_
  rintro - s₁ ⟨r1, hs1⟩
  obtain ⟨P, HP⟩ := conv_eval (α := α) (N := N) (R := R) hA (hs.wf a) hlin c
    (ε := |(s.heap a).elem.val α| / 4) (by positivity)
  simp only [sgnStep_eq]
  refine Ends.mono (watch_ends hE hR (e := (s.heap a).elem) ⟨P, ?_⟩ hp2 hc r1
    (by rw [hs1, write_heap, if_pos rfl])) fun _ _ _ => trivial
  intro f q hq hw
  have := (HP f q hq hw).nonzero (by have := abs_pos.2 hv; linarith)
  exact ⟨_, by rw [this]; rfl⟩

/-! ## Comparison -/

theorem cmp_ends (hA : A.Convergent) (hE : ∀ k, FieldInv (envs A N R k) α I)
    (hR : RefinesOr R I) {a b : Reg} (ha : a ≠ .tmp 0) (hb : b ≠ .tmp 0)
    (hla : LegalAt K α I (v a)) (hlb : LegalAt K α I (v b)) (hl : LegalAt K α I (v a - v b))
    (hs : Rep K α I v s) :
    Ends V (fun k => (envs A N R k).cmp a b) s fun z s' =>
      Rep K α I v s' ∧ z = sgnR (v a - v b) := by
  refine ((?_ : Ends V _ s fun _ _ => True).and_hoare (fun k => cmp_spec (hE k) ha hb) hs).mono
    fun z s' h => h.2
  have hf := (hE 0).prec hs.inv
  unfold Env.cmp
  refine Ends.read (Ends.read ?_)
  refine Ends.ite (fun _ => Ends.pure' trivial) fun _ => Ends.ite (fun _ => Ends.pure' trivial)
    fun _ => Ends.ite (fun _ => Ends.pure' trivial) fun _ => Ends.ite (fun _ => ?_) fun _ => ?_
  · refine Ends.ite (fun _ => ?_) fun _ => Ends.ite (fun _ => ?_) fun _ => Ends.pure' trivial
    · exact (sgn_ends hA hE hR hlb hs).bind fun _ _ _ => Ends.pure' trivial
    · exact (sgn_ends hA hE hR hla hs).mono fun _ _ _ => trivial
  refine startPrec_ends.bind ?_
  rintro p t ⟨ht, hp⟩
  rw [ht]
  refine (getCond_ends hla hs rfl hf).bind ?_
  rintro c t ⟨ht, hc⟩
  rw [ht]
  rw [← hp] at hc
  refine (setEvaluation_ends hE hc hs).bind ?_
  rintro - s₁ ⟨r1, hs1⟩
  have hfld : s₁.fld = s.fld := by rw [hs1]; rfl
  refine (getCond_ends hlb r1 rfl ((hE 0).prec r1.inv)).bind ?_
  rintro c' t ⟨ht, hc'⟩
  rw [ht]
  rw [hfld, ← hp] at hc'
  refine (setEvaluation_ends hE hc' r1).bind ?_
  rintro - s₂ ⟨r2, -⟩
  refine Ends.read (Ends.read ?_)
  refine Ends.ite (fun _ => Ends.pure' trivial) fun _ => Ends.ite (fun _ => Ends.pure' trivial)
    fun _ => Ends.withTmp ?_
  refine (Ends.op (fun _ => rfl) ⟨_, rfl⟩ (sub_spec (hE 0) (.tmp 0) a b) (tmp_rep (hE 0) r2)).bind ?_
  rintro - s₃ r3
  refine (sgn_ends hA hE hR ?_ r3).mono fun _ _ _ => trivial
  rw [upd_same, upd_ne _ _ ha, upd_ne _ _ hb]
  exact hl

theorem cmpQ_ends (hA : A.Convergent) (hE : ∀ k, FieldInv (envs A N R k) α I)
    (hR : RefinesOr R I) {a : Reg} (ha : a ≠ .tmp 1) {c : ℚ} {nd : Bool}
    (hla : LegalAt K α I (v a)) (hl : LegalAt K α I (v a - c)) (hs : Rep K α I v s) :
    Ends V (fun k => (envs A N R k).cmpQ a c nd) s fun z s' =>
      Rep K α I v s' ∧ z = sgnR (v a - c) := by
  refine ((?_ : Ends V _ s fun _ _ => True).and_hoare (fun k => cmpQ_spec (hE k) ha c nd) hs).mono
    fun z s' h => h.2
  have hf := (hE 0).prec hs.inv
  unfold Env.cmpQ
  refine Ends.read (Ends.ite (fun _ => ?_) fun _ => Ends.ite (fun _ => Ends.pure' trivial) fun _ =>
    Ends.ite (fun _ => Ends.pure' trivial) fun _ => Ends.field ?_)
  · exact (sgn_ends hA hE hR hla hs).mono fun _ _ _ => trivial
  simp only [envs_A]
  by_cases h : (!(A.sub (s.heap a).emb (A.setFmpq c s.fld.prec) s.fld.prec).containsZero) = true
  · simp only [h, reduceIte]
    exact Ends.pure' trivial
  simp only [h, reduceIte]
  refine (getCond_ends hla hs rfl hf).bind ?_
  rintro z t ⟨ht, hc⟩
  rw [ht]
  refine startPrec_ends.bind ?_
  rintro p t ⟨ht, hp⟩
  rw [ht]
  rw [← hp] at hc
  refine Ends.ite (fun h => ?_) fun _ => ?_
  · exfalso
    rw [Bool.and_eq_true, decide_eq_true_eq] at h
    omega
  refine (setEvaluation_ends hE hc hs).bind ?_
  rintro - s₁ ⟨r1, -⟩
  refine Ends.read ?_
  by_cases h : (!(A.sub (s₁.heap a).emb (A.setFmpq c p) p).containsZero) = true
  · simp only [h, reduceIte]
    exact Ends.pure' trivial
  simp only [h, reduceIte]
  refine Ends.withTmp ?_
  refine (Ends.op (fun _ => rfl) ⟨_, rfl⟩ (set_spec (hE 0) (.tmp 1) a) (tmp_rep (hE 0) r1)).bind ?_
  rintro - s₂ r2
  refine (Ends.op (fun _ => rfl) ⟨_, rfl⟩ (subQ_spec (hE 0) (.tmp 1) (.tmp 1) c) r2).bind ?_
  rintro - s₃ r3
  refine (sgn_ends hA hE hR ?_ r3).mono fun _ _ _ => trivial
  rw [upd_same, upd_same, upd_ne _ _ ha]
  exact hl

/-! ## Rounding -/

theorem finiteStep_eq (E : Env K) (a : Reg) (cond : ℤ) :
    E.finiteStep a cond = checkStep E a cond (fun b _ => if b.isFinite then some () else none) := by
  funext prec
  unfold Env.finiteStep checkStep
  congr 1
  funext x
  beta_reduce
  cases x.emb.isFinite <;> rfl

theorem within_finite {b : Ball} {x ε : ℝ} (h : b.Within x ε) : b.isFinite = true := by
  obtain ⟨-, m, r, rfl, -⟩ := h
  rfl

/-- rounding ends; `V` allows the `abort` for numbers whose exponent does not fit into a word -/
theorem round_ends (hA : A.Convergent) (hE : ∀ k, FieldInv (envs A N R k) α I)
    (hR : RefinesOr R I) (hV : V) (kd : Env.Kind) {a : Reg} (hl : LegalAt K α I (v a))
    (hs : Rep K α I v s) :
    Ends V (fun k => (envs A N R k).round kd a) s fun _ s' => Rep K α I v s' := by
  have hf := (hE 0).prec hs.inv
  unfold Env.round
  refine Ends.read (Ends.ite (fun _ => Ends.pure' hs) fun hr => ?_)
  have hr' : (s.heap a).elem.isRational K = false := by simpa using hr
  have hlin : K.isLinear = false := by
    by_contra hl
    exact hr (rational_of_linear (by simpa using hl))
  have hwf := hs.wf a
  obtain ⟨ε, hε, P₀, H0⟩ := uniqueInt_conv kd (val_ne_int (hE 0).ok (hE 0).root hwf hr')
  -- finite enclosure
  have fin : Ends V (fun k => (envs A N R k).ensureFinite a) s fun c s' => Rep K α I v s' ∧
      (s'.heap a).elem = (s.heap a).elem ∧ (s'.heap a).emb.isFinite = true ∧ ∀ z, c = some z →
        2 ≤ max s'.fld.prec s'.fld.emb.relAccuracyBits + z := by
    unfold Env.ensureFinite
    refine Ends.read (Ends.ite (fun h => Ends.pure' ⟨hs, rfl, h, by simp⟩) fun _ => ?_)
    refine (getCond_ends hl hs rfl hf).bind ?_
    rintro c t ⟨ht, hc⟩
    rw [ht]
    refine startPrec_ends.bind ?_
    rintro p t ⟨ht, hp⟩
    rw [ht]
    have hp2 : 2 ≤ p := by rw [hp]; exact hf.trans (le_max_left _ _)
    rw [← hp] at hc
    refine (setEvaluation_ends hE hc hs).bind ?_
    rintro - s₁ ⟨r1, hs1⟩
    have e1 : (s₁.heap a).elem = (s.heap a).elem := by rw [hs1, write_heap, if_pos rfl]
    have f1 : s₁.fld = s.fld := by rw [hs1]; rfl
    obtain ⟨P, HP⟩ := conv_eval (α := α) (N := N) (R := R) hA hwf hlin c (ε := 1) (by norm_num)
    have hloop : Ends V (fun k => M.loop ((envs A N R k).finiteStep a c) k p) s₁ fun _ s' =>
        Rep K α I v s' ∧ (s'.heap a).elem = (s.heap a).elem ∧ (s'.heap a).emb.isFinite = true ∧
        2 ≤ max s'.fld.prec s'.fld.emb.relAccuracyBits + c := by
      simp only [finiteStep_eq]
      refine Ends.mono (watch_ends hE hR (e := (s.heap a).elem) ⟨P, ?_⟩ hp2 hc r1 e1) ?_
      · intro f q hq hw
        exact ⟨(), by rw [within_finite (HP f q hq hw)]; rfl⟩
      · rintro _ s' ⟨h1, h2, h3, q, -, h4⟩
        refine ⟨h1, (h2 a).trans e1, ?_, ?_⟩
        · by_contra hc
          rw [if_neg hc] at h4
          simp at h4
        · rcases h3 with h3 | h3
          · rw [h3, f1, ← hp]; exact hc
          · have := le_max_right s'.fld.prec s'.fld.emb.relAccuracyBits
            omega
    refine hloop.bind ?_
    rintro - s' ⟨h1, h2, h3, h4⟩
    refine Ends.pure' ⟨h1, h2, h3, ?_⟩
    rintro z ⟨⟩
    exact h4
  refine fin.bind ?_
  rintro c0 s₁ ⟨r1, e1, f1, hc0⟩
  have hf1 := (hE 0).prec r1.inv
  refine Ends.read (Ends.field ?_)
  cases hu : Env.uniqueInt kd (s₁.heap a).emb s₁.fld.prec with
  | some z => exact Ends.pure' r1
  | none =>
    simp only
    have hsz : (∃ z, Env.intSize kd (s₁.heap a).emb s₁.fld.prec = .ok z) ∨
        Env.intSize kd (s₁.heap a).emb s₁.fld.prec = .abort := by
      cases hb : (s₁.heap a).emb with
      | whole => rw [hb] at f1; simp [Ball.isFinite] at f1
      | fin m r =>
        obtain ⟨lr, hlr⟩ : ∃ lr, (Ball.fin m r).interval s₁.fld.prec = some lr := ⟨_, rfl⟩
        simp only [Env.intSize, hlr]
        by_cases h : (if kd.arfInt lr.1 = 0 then (0 : ℤ) else bexp (kd.arfInt lr.1)) < 2 ^ 63 ∧
            (if kd.arfInt lr.2 = 0 then (0 : ℤ) else bexp (kd.arfInt lr.2)) < 2 ^ 63
        · exact .inl ⟨_, if_pos h⟩
        · exact .inr (if_neg h)
    rcases hsz with ⟨z, hz⟩ | hz
    · refine (Ends.ret (z := z) (s' := s₁) (Post := fun _ t => t = s₁) rfl fun _ => by
        simp only [M.lift, hz]).bind ?_
      rintro size t rfl
      refine startPrec_ends.bind ?_
      rintro p t' ⟨rfl, hp⟩
      have hp2 : 2 ≤ p := by rw [hp]; exact hf1.trans (le_max_left _ _)
      have hcond : Ends V (fun k => (envs A N R k).condOr a c0) t' fun c t'' => t'' = t' ∧
          2 ≤ p + c := by
        cases c0 with
        | some c =>
          refine Ends.pure' ⟨rfl, ?_⟩
          rw [hp]; exact hc0 c rfl
        | none =>
          refine (getCond_ends hl r1 rfl hf1).mono ?_
          rintro c t ⟨h1, h2⟩
          exact ⟨h1, by rw [hp]; exact h2⟩
      refine hcond.bind ?_
      rintro c t ⟨rfl, hc⟩
      obtain ⟨P, HP⟩ := conv_eval (α := α) (N := N) (R := R) hA hwf hlin c hε
      simp only [roundStep_eq]
      refine evalWatch_ends hE hR (e := (s.heap a).elem) ⟨max P P₀, ?_⟩ hp2 hc r1 e1
      intro f q hq hw
      exact H0 _ _ (((le_max_right _ _).trans hq).trans (le_max_right _ _))
        (HP f q ((le_max_left _ _).trans hq) hw)
    · exact ⟨0, .inr (.inr ⟨hV, fun k _ => M.bind_res (r := .abort) (by simp only [M.lift, hz])⟩)⟩

end EAntic
