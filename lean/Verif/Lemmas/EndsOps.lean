import Verif.Lemmas.EndsNear
import Verif.Lemmas.Ops
import Verif.Spec.Legal

/-! # Every call, and every program, ends -/

namespace EAntic

variable {K : Nf} {α : ℝ} {I : Field → Prop} {v : Reg → ℝ} {A : ArbOps} {N : NfOps K}
  {R : ℕ → Field → ℤ → Res Field} {s : Mem} {V : Prop}

theorem Ends.det {β : Type} {m : ℕ → M β} (h : ∀ k, m k s = m 0 s) (h0 : ∃ r, m 0 s = .ok r) :
    Ends V m s fun _ _ => True := by
  obtain ⟨⟨z, s₁⟩, h0⟩ := h0
  exact .ret trivial fun k => (h k).trans h0

theorem exec_ends (hT : A.Tight) (hC : A.Convergent) (hE : ∀ k, FieldInv (envs A N R k) α I)
    (hR : RefinesOr R I) (hlin : K.isLinear = false)
    {p : ℤ} (hS : ∀ x, Sizeable K α p x → LegalAt K α I x) (op : Op) (hV : op.rounds = true → V)
    (hl : LegalCall K α p (usr v) op) (hs : Rep K α I v s) :
    Ends V (fun k => (envs A N R k).exec op) s fun ans s' =>
      ∃ v', Rep K α I v' s' ∧ Step K α (usr v) op ans (usr v') := by
  refine ((?_ : Ends V _ s fun _ _ => True).and_hoare (fun k => exec_spec (hE k) op v) hs).mono
    fun z s' h => h.2
  have unit : ∀ {β : Type} {m : ℕ → M β} {f : β → Ans} {Post : β → Mem → Prop}, Ends V m s Post →
      Ends V (fun k => m k >>= fun z => pure (f z)) s fun _ _ => True :=
    fun h => h.bind fun _ _ _ => Ends.pure' trivial
  have nz : ∀ {r}, v r ≠ 0 → (s.heap r).elem.isZero K = false := by
    intro r h
    by_contra h'
    exact h ((hs.val r).symm.trans ((isZero_iff (hE 0).ok (hE 0).root (hs.wf r)).1 (by simpa using h')))
  cases op with
  | setPoly a n d =>
    have h : ¬ d ≤ 0 := not_le.2 hl
    refine Ends.congr (m' := fun k => (envs A N R k).setPoly (.user a) n d >>= fun _ => pure Ans.unit) ?_
      fun k => by simp only [Env.exec, h, reduceIte]
    exact Ends.det (fun _ => rfl) ⟨_, rfl⟩
  | gen a =>
    refine Ends.congr (m' := fun k => (envs A N R k).setPoly (.user a) [0, 1] 1 >>= fun _ => pure Ans.unit) ?_
      fun k => by
        simp only [Env.exec, Env.gen, hlin]
        rfl
    exact Ends.det (fun _ => rfl) ⟨_, rfl⟩
  | div a b c =>
    obtain ⟨r, hr⟩ := div_run (A := A) (N := N) (R := R) (k := 0) (a := .user a) (b := .user b) (nz hl)
    exact unit (Ends.ret (m := fun k => (envs A N R k).div (.user a) (.user b) (.user c))
      (Post := fun _ _ => True) trivial fun k => hr)
  | inv a b =>
    obtain ⟨r, hr⟩ := inv_run (A := A) (N := N) (R := R) (k := 0) (a := .user a) (nz hl)
    exact unit (Ends.ret (m := fun k => (envs A N R k).inv (.user a) (.user b))
      (Post := fun _ _ => True) trivial fun k => hr)
  | divZ a b c =>
    have h : c ≠ 0 := hl
    refine unit (m := fun k => (envs A N R k).divZ (.user a) (.user b) c) (Post := fun _ _ => True) ?_
    unfold Env.divZ
    refine Ends.read (Ends.read (Ends.field ?_))
    simp only [h, reduceIte]
    exact Ends.det (fun _ => rfl) ⟨_, rfl⟩
  | divQ a b c =>
    have h : c ≠ 0 := hl
    refine unit (m := fun k => (envs A N R k).divQ (.user a) (.user b) c) (Post := fun _ _ => True) ?_
    unfold Env.divQ
    refine Ends.read (Ends.read (Ends.field ?_))
    simp only [h, reduceIte]
    exact Ends.det (fun _ => rfl) ⟨_, rfl⟩
  | qDiv a b c =>
    refine unit (m := fun k => (envs A N R k).qDiv (.user a) b (.user c)) (Post := fun _ _ => True) ?_
    unfold Env.qDiv
    refine (Ends.op (fun _ => rfl) ⟨_, rfl⟩ (set_spec (hE 0) (.user a) (.user c)) hs).bind ?_
    rintro - s₁ r1
    have hz : (s₁.heap (.user a)).elem.isZero K = false := by
      by_contra h'
      have := (r1.val (.user a)).symm.trans
        ((isZero_iff (hE 0).ok (hE 0).root (r1.wf (.user a))).1 (by simpa using h'))
      simp only [upd_same] at this
      exact hl this
    obtain ⟨r, hr⟩ := inv_run (A := A) (N := N) (R := R) (k := 0) (a := .user a) hz
    refine (Ends.ret (m := fun k => (envs A N R k).inv (.user a) (.user a))
      (Post := fun _ _ => True) trivial fun k => hr).bind ?_
    rintro - s₂ -
    exact Ends.det (fun _ => rfl) ⟨_, rfl⟩
  | refine p => exact unit (refineField_ends' hE hR p hs)
  | setEvaluation a p => exact unit (setEvaluation_ends hE hl hs)
  | checkEmbedding a p =>
    refine unit (m := fun k => (envs A N R k).checkEmbedding (.user a) p) (Post := fun _ _ => True) ?_
    have hp : guardPrec p = true := by
      have : 2 ≤ p := hl
      simpa [guardPrec] using this
    have ho : (s.heap (.user a)).emb.overlaps
        ((envs A N R 0).evalBall s.fld (s.heap (.user a)).elem p) = true :=
      Ball.overlaps_of_mem (hs.enc _) (by
        rw [← hs.val]
        exact evalBall_mem ((hE 0).enc hs.inv) (hs.wf _) hl)
    refine Ends.ret (z := ()) (s' := s) trivial fun k => ?_
    unfold Env.checkEmbedding
    rw [if_pos hp]
    show (if (s.heap (.user a)).emb.overlaps ((envs A N R 0).evalBall s.fld (s.heap (.user a)).elem p) = true
      then pure () else M.abort : M Unit) s = _
    rw [if_pos ho]
    rfl
  | sgn a => exact unit (sgn_ends hC hE hR (hS _ hl) hs)
  | cmp a b =>
    exact unit (cmp_ends hC hE hR (by simp) (by simp) (hS _ hl.1) (hS _ hl.2.1) (hS _ hl.2.2) hs)
  | cmpQ a c => exact unit (cmpQ_ends hC hE hR (by simp) (hS _ hl.1) (hS _ hl.2) hs)
  | floor a => exact unit (round_ends hC hE hR (hV rfl) .floor (hS _ hl) hs)
  | ceil a => exact unit (round_ends hC hE hR (hV rfl) .ceil (hS _ hl) hs)
  | fdiv b c =>
    obtain ⟨h0, hb, hc, hq, hz⟩ := hl
    exact unit (fdiv_ends hC hT.divConvergent hE hR (hV rfl) (by simp) (by simp) h0 (hS _ hb) (hS _ hc)
      (hS _ hq) (fun z h => ⟨hS _ (hz z h).1, hS _ (hz z h).2⟩) hs)
  | getArb a q => exact unit (getArb_ends hC hE hR hlin (hS _ hl.1) hl.2.1 hl.2.2 hs)
  | getD a rnd =>
    exact unit (getD_ends hC hE hR (by simp)
      (fun x hx => ⟨hS _ (hl x hx).1, hS _ (hl x hx).2.1, hS _ (hl x hx).2.2⟩) rnd hs)
  | getCfrac rem a n =>
    exact unit (getCfrac_ends hC hE hR (hV rfl) n (fun h0 i hi => hS _ (hl h0 i hi)) hs)
  | _ => exact Ends.det (fun _ => rfl) ⟨_, rfl⟩

theorem run_ends (hT : A.Tight) (hC : A.Convergent) (hE : ∀ k, FieldInv (envs A N R k) α I)
    (hR : RefinesOr R I) (hlin : K.isLinear = false)
    {p : ℤ} (hS : ∀ x, Sizeable K α p x → LegalAt K α I x) (ops : List Op) :
    ∀ (v : Reg → ℝ) (s : Mem), ((∃ op ∈ ops, op.rounds = true) → V) →
      LegalProgram K α p (usr v) ops → Rep K α I v s →
      Ends V (fun k => (envs A N R k).run ops) s fun as s' =>
        ∃ v', Rep K α I v' s' ∧ Steps K α (usr v) ops as (usr v') := by
  induction ops with
  | nil => exact fun v s _ _ hs => Ends.pure' ⟨v, hs, rfl⟩
  | cons op ops ih =>
    intro v s hV hl hs
    refine (exec_ends hT hC hE hR hlin hS op (fun h => hV ⟨op, by simp, h⟩) hl.1 hs).bind ?_
    rintro a s₁ ⟨w, hw, hst⟩
    refine (ih w s₁ (fun ⟨o, h1, h2⟩ => hV ⟨o, by simp [h1], h2⟩) (hl.2 a _ hst) hw).bind ?_
    rintro as s₂ ⟨v', hv', hsts⟩
    exact Ends.pure' ⟨v', hv', usr w, hst, hsts⟩

end EAntic
