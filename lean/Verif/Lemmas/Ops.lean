import Verif.Spec.Ops
import Verif.Lemmas.Convert
import Verif.Lemmas.GetD

/-! # Every call refines its specification on real numbers -/

namespace EAntic

variable {K : Nf} {E : Env K} {α : ℝ} {I : Field → Prop} {v : Reg → ℝ}

theorem Hoare.and {β : Type} {P : Mem → Prop} {m : M β} {Q R : β → Mem → Prop} (h1 : Hoare P m Q)
    (h2 : Hoare P m R) : Hoare P m (fun a s => Q a s ∧ R a s) :=
  fun s a s' hs e => ⟨h1 s a s' hs e, h2 s a s' hs e⟩

theorem Hoare.map {β γ : Type} {P : Mem → Prop} {m : M β} {Q : β → Mem → Prop} {f : β → γ}
    {R : γ → Mem → Prop} (h : Hoare P m Q) (hR : ∀ b s, Q b s → R (f b) s) :
    Hoare P (m >>= fun b => pure (f b)) R :=
  Hoare.bind _ h fun b => Hoare.pure' fun s hs => hR b s hs

section

variable (hE : FieldInv E α I)
include hE

theorem isZero_ne {s : Mem} (h : Rep K α I v s) {c : Reg} (hz : ¬ (s.heap c).elem.isZero K = true) :
    v c ≠ 0 := by
  intro h0
  exact hz ((isZero_iff hE.ok hE.root (h.wf c)).2 (by rw [h.val, h0]))

theorem div_ne (a b c : Reg) : Hoare (Rep K α I v) (E.div a b c) fun _ _ => v c ≠ 0 := by
  unfold Env.div
  refine Hoare.read fun x => Hoare.read fun y => Hoare.read fun z => Hoare.field fun f => ?_
  refine Hoare.ite (fun _ => Hoare.ub) fun hz => Hoare.write ?_
  rintro s ⟨⟨⟨⟨h, rfl⟩, rfl⟩, rfl⟩, rfl⟩
  exact isZero_ne hE h hz

theorem inv_ne (a b : Reg) : Hoare (Rep K α I v) (E.inv a b) fun _ _ => v b ≠ 0 := by
  unfold Env.inv
  refine Hoare.read fun x => Hoare.read fun y => Hoare.field fun f => ?_
  refine Hoare.ite (fun _ => Hoare.ub) fun hz => Hoare.write ?_
  rintro s ⟨⟨⟨h, rfl⟩, rfl⟩, rfl⟩
  exact isZero_ne hE h hz

omit hE in
theorem divZ_ne (P : Mem → Prop) (a b : Reg) (c : ℤ) : Hoare P (E.divZ a b c) fun _ _ => c ≠ 0 := by
  unfold Env.divZ
  refine Hoare.read fun x => Hoare.read fun y => Hoare.field fun f => ?_
  exact Hoare.ite (fun _ => Hoare.ub) fun hz => Hoare.write fun _ _ => hz

omit hE in
theorem divQ_ne (P : Mem → Prop) (a b : Reg) (c : ℚ) : Hoare P (E.divQ a b c) fun _ _ => c ≠ 0 := by
  unfold Env.divQ
  refine Hoare.read fun x => Hoare.read fun y => Hoare.field fun f => ?_
  exact Hoare.ite (fun _ => Hoare.ub) fun hz => Hoare.write fun _ _ => hz

theorem qDiv_ne (a : Reg) (b : ℚ) (c : Reg) :
    Hoare (Rep K α I v) (E.qDiv a b c) fun _ _ => v c ≠ 0 := by
  unfold Env.qDiv
  refine Hoare.bind _ (set_spec hE a c) fun _ => ?_
  refine Hoare.bind (fun _ _ => v c ≠ 0) ((inv_ne hE a a).conseq (fun _ h => h) fun _ _ h => ?_)
    fun _ => ?_
  · rwa [upd_same] at h
  · intro s a s' hs _; exact hs

theorem fdiv_ne {b c : Reg} : Hoare (Rep K α I v) (E.fdiv b c) fun _ _ => v c ≠ 0 := by
  unfold Env.fdiv
  refine Hoare.read fun z => Hoare.ite (fun hr => ?_) (fun hr => ?_)
  · refine Hoare.imp (p := v c ≠ 0) (fun hv => fun s a s' _ _ => hv) ?_
    rintro s ⟨h, rfl⟩ h0
    have : (s.heap c).elem.isZero K = true :=
      (isZero_iff hE.ok hE.root (h.wf c)).2 (by rw [h.val, h0])
    have := ((isZero_struct (h.wf c)).1 this).1
    simp [this] at hr
  · unfold M.withTmp
    refine Hoare.read fun old => Hoare.field fun f => ?_
    refine Hoare.imp (p := f.nf = K) ?_ ?_
    swap
    · rintro s ⟨⟨h, _⟩, rfl⟩; exact hE.nf h.1.inv
    intro hf
    rw [hf]
    by_cases hcr : c = .tmp 3
    · -- the local variable is zero, so the division is not executed
      refine Hoare.bind (fun _ => Rep K α I (upd v (.tmp 3) 0)) (Hoare.write ?_) fun _ => ?_
      · rintro s ⟨⟨h0, _⟩, _⟩
        exact h0.1.write (init_wf hE.ok) init_val (Ball.mem_exact.2 (by simp))
      refine Hoare.bind (fun _ _ => False) ?_ fun _ s a s' hs _ => hs.elim
      refine Hoare.bind (fun _ _ => False) ?_ fun _ s a s' hs _ => hs.elim
      refine (div_ne hE _ _ _).conseq (fun _ h => h) fun _ _ h => h ?_
      rw [hcr, upd_same]
    · refine Hoare.bind (fun _ => Rep K α I (upd v (.tmp 3) 0)) (Hoare.write ?_) fun _ => ?_
      · rintro s ⟨⟨h0, _⟩, _⟩
        exact h0.1.write (init_wf hE.ok) init_val (Ball.mem_exact.2 (by simp))
      refine Hoare.bind (fun _ _ => v c ≠ 0) ?_ fun _ s a s' hs _ => hs
      refine Hoare.bind (fun _ _ => v c ≠ 0) ?_ fun _ s a s' hs _ => hs
      refine (div_ne hE _ _ _).conseq (fun _ h => h) fun _ _ h => ?_
      rwa [upd_ne _ _ hcr] at h

theorem clean_of_degree (hd : K.degree ≤ 2) {s : Mem} (hs : Rep K α I v s) (b : Reg) : Clean s b := by
  intro hn
  exfalso
  have hw := hs.wf b
  have h2 := hE.ok.two_le
  unfold Nf.degree at hd
  have : K.pol.length = 2 ∨ K.pol.length = 3 := by omega
  rcases this with h | h
  · have := hw.linear (by simp [Nf.isLinear, h])
    rw [hn] at this; simp at this
  · have := hw.quadratic (by simp [Nf.isQuadratic, h])
    rw [hn] at this; simp at this

theorem round_rep (k : Env.Kind) (b : Reg) :
    Hoare (Rep K α I v) (E.round k b)
      fun z s => Rep K α I v s ∧ (v b ≠ 0 ∨ K.degree ≤ 2 → z = k.real (v b)) := by
  by_cases hd : K.degree ≤ 2
  · exact (round_spec hE k b).conseq (fun s h => ⟨h, .inr (clean_of_degree hE hd h b)⟩)
      fun z s h => ⟨h.1, fun _ => h.2⟩
  by_cases h0 : v b = 0
  · unfold Env.round
    refine Hoare.read fun x => Hoare.ite (fun hr => ?_) (fun hr => ?_)
    · exact Hoare.pure' fun s h => ⟨h.1, fun h => absurd h0 (h.resolve_right hd)⟩
    · refine Hoare.imp (p := False) False.elim ?_
      rintro s ⟨h, rfl⟩
      apply hr
      exact ((isZero_struct (h.wf b)).1
        ((isZero_iff hE.ok hE.root (h.wf b)).2 (by rw [h.val, h0]))).1
  · exact (round_spec hE k b).conseq (fun s h => ⟨h, .inl h0⟩) fun z s h => ⟨h.1, fun _ => h.2⟩

theorem gen_linear (hl : K.isLinear = true) (a : Reg) :
    Hoare (Rep K α I v) (E.gen a) fun _ s => Rep K α I (upd v a (genValue K α)) s := by
  unfold Env.gen
  refine Hoare.field fun f => ?_
  rw [hl]
  simp only [if_true]
  refine Hoare.ite (fun _ => Hoare.ub) fun h0 => Hoare.write ?_
  rintro s ⟨h, rfl⟩
  set q : ℚ := ((-K.pol.getD 1 0 : ℤ) : ℚ) / ((K.pol.getD 0 0 : ℤ) : ℚ) with hq
  have hden : (q.den : ℤ) ≠ 0 := by exact_mod_cast q.den_ne_zero
  have hval : (q.num : ℝ) / ((q.den : ℤ) : ℝ) = genValue K α := by
    have h1 : ((q.num : ℝ) / ((q.den : ℤ) : ℝ)) = ((q : ℚ) : ℝ) := by
      conv_rhs => rw [← Rat.num_div_den q]
      push_cast; rfl
    rw [h1, hq]
    unfold genValue
    rw [hl]
    push_cast
    simp
  have hquad : K.isQuadratic = false := by
    simp [Nf.isLinear, Nf.isQuadratic] at *; omega
  refine h.write ⟨?_, ?_, ?_, ?_, ?_⟩ ?_ ?_
  · have := q.den_pos
    show (0 : ℤ) < q.den
    exact_mod_cast this
  · show Nat.gcd (q.den : ℤ).natAbs (NfElem.content [q.num]) = 1
    simp [NfElem.content]
    have := q.reduced
    rw [Nat.coprime_comm] at this
    exact this
  · intro _; rfl
  · rw [hquad]; simp
  · rw [hl]; simp
  · simp only [NfElem.val, realValue, toPoly]
    simpa using hval
  · rw [← hval]
    exact E.A.fmpzDivFmpz_mem (hE.prec h.inv) hden

/-! ## Calls -/

omit hE in
theorem usr_upd (v : Reg → ℝ) (a : ℕ) (x : ℝ) :
    usr (upd v (.user a) x) = Function.update (usr v) a x := by
  funext n
  unfold usr upd Function.update
  by_cases h : n = a
  · subst h; simp
  · simp [h]

theorem getD_rounds {a : Reg} (ha : a ≠ .tmp 1) (rnd : Rnd) {nd : Bool} :
    Hoare (Rep K α I v) (E.getD a rnd nd) fun d s => Rep K α I v s ∧
      ((2 : ℝ) ^ (-1022 : ℤ) ≤ |v a| → |v a| ≤ dblMax → RoundsTo rnd (v a) d) := by
  refine (getD_spec hE ha rnd).conseq (fun _ h => h) ?_
  rintro d s ⟨h, h1, h2, -, -⟩
  refine ⟨h, fun h3 h4 => ?_⟩
  by_cases hr : ∃ q : ℚ, v a = q
  · obtain ⟨q, hq⟩ := hr
    rw [h1 q hq, hq]
    have h5 : (2 : ℚ) ^ (-1022 : ℤ) ≤ |q| := by
      rw [hq] at h3
      have : (((2 : ℚ) ^ (-1022 : ℤ) : ℚ) : ℝ) ≤ ((|q| : ℚ) : ℝ) := by
        rw [Rat.cast_zpow, Rat.cast_abs, Rat.cast_ofNat]
        exact h3
      exact Rat.cast_le.1 this
    have hq0 : q ≠ 0 := by
      rintro rfl
      rw [abs_zero] at h5
      exact absurd (two_zpow_posQ (-1022)) (not_lt.2 h5)
    by_cases hn : rnd = .near
    · subst hn
      rw [twice_near h5]
      exact arfGetD_spec _ _
    · exact twice_directed hn hq0
  · refine h2 ?_ h4
    rintro ⟨q, hq⟩
    exact hr ⟨q, hq.symm⟩

/-- Every call that returns behaves like the exact calculator, and keeps all enclosures valid. -/
theorem exec_spec (op : Op) (v : Reg → ℝ) :
    Hoare (Rep K α I v) (E.exec op) fun ans s =>
      ∃ v', Rep K α I v' s ∧ Step K α (usr v) op ans (usr v') := by
  cases op with
  | zero a =>
    exact (zero_spec hE (.user a)).map fun _ s h => ⟨_, h, rfl, usr_upd ..⟩
  | one a => exact (one_spec hE (.user a)).map fun _ s h => ⟨_, h, rfl, usr_upd ..⟩
  | set a b => exact (set_spec hE (.user a) (.user b)).map fun _ s h => ⟨_, h, rfl, usr_upd ..⟩
  | setZ a c => exact (setZ_spec hE (.user a) c).map fun _ s h => ⟨_, h, rfl, usr_upd ..⟩
  | setQ a c => exact (setQ_spec hE (.user a) c).map fun _ s h => ⟨_, h, rfl, usr_upd ..⟩
  | setPoly a n d =>
    refine Hoare.ite (fun _ => Hoare.ub) fun hd => ?_
    exact (setPoly_spec hE (.user a) n (by omega)).map fun _ s h => ⟨_, h, rfl, usr_upd ..⟩
  | gen a =>
    cases hl : K.isLinear with
    | true => exact (gen_linear hE hl (.user a)).map fun _ s h => ⟨_, h, rfl, usr_upd ..⟩
    | false =>
      refine (gen_spec hE hl (.user a)).map fun _ s h => ⟨_, h, rfl, ?_⟩
      rw [usr_upd]; simp [genValue, hl]
  | swap a b =>
    refine (swap_spec hE (.user a) (.user b)).map fun _ s h => ⟨_, h, rfl, ?_⟩
    rw [usr_upd, usr_upd]; rfl
  | neg a b => exact (neg_spec hE (.user a) (.user b)).map fun _ s h => ⟨_, h, rfl, usr_upd ..⟩
  | add a b c =>
    exact (add_spec hE (.user a) (.user b) (.user c)).map fun _ s h => ⟨_, h, rfl, usr_upd ..⟩
  | sub a b c =>
    exact (sub_spec hE (.user a) (.user b) (.user c)).map fun _ s h => ⟨_, h, rfl, usr_upd ..⟩
  | mul a b c =>
    exact (mul_spec hE (.user a) (.user b) (.user c)).map fun _ s h => ⟨_, h, rfl, usr_upd ..⟩
  | div a b c =>
    exact ((div_spec hE (.user a) (.user b) (.user c)).and (div_ne hE _ _ _)).map
      fun _ s h => ⟨_, h.1, h.2, rfl, usr_upd ..⟩
  | inv a b =>
    exact ((inv_spec hE (.user a) (.user b)).and (inv_ne hE _ _)).map
      fun _ s h => ⟨_, h.1, h.2, rfl, usr_upd ..⟩
  | pow a b n => exact (pow_spec hE (.user a) (.user b) n).map fun _ s h => ⟨_, h, rfl, usr_upd ..⟩
  | addZ a b c => exact (addZ_spec hE (.user a) (.user b) c).map fun _ s h => ⟨_, h, rfl, usr_upd ..⟩
  | subZ a b c => exact (subZ_spec hE (.user a) (.user b) c).map fun _ s h => ⟨_, h, rfl, usr_upd ..⟩
  | mulZ a b c => exact (mulZ_spec hE (.user a) (.user b) c).map fun _ s h => ⟨_, h, rfl, usr_upd ..⟩
  | divZ a b c =>
    exact ((divZ_spec hE (.user a) (.user b) c).and (divZ_ne _ _ _ _)).map
      fun _ s h => ⟨_, h.1, h.2, rfl, usr_upd ..⟩
  | addQ a b c => exact (addQ_spec hE (.user a) (.user b) c).map fun _ s h => ⟨_, h, rfl, usr_upd ..⟩
  | subQ a b c => exact (subQ_spec hE (.user a) (.user b) c).map fun _ s h => ⟨_, h, rfl, usr_upd ..⟩
  | qSub a c b => exact (qSub_spec hE (.user a) c (.user b)).map fun _ s h => ⟨_, h, rfl, usr_upd ..⟩
  | mulQ a b c => exact (mulQ_spec hE (.user a) (.user b) c).map fun _ s h => ⟨_, h, rfl, usr_upd ..⟩
  | divQ a b c =>
    exact ((divQ_spec hE (.user a) (.user b) c).and (divQ_ne _ _ _ _)).map
      fun _ s h => ⟨_, h.1, h.2, rfl, usr_upd ..⟩
  | qDiv a b c =>
    refine ((qDiv_spec hE (.user a) b (.user c)).and (qDiv_ne hE _ _ _)).map
      fun _ s h => ⟨_, h.1, h.2, rfl, ?_⟩
    rw [usr_upd]
    congr 1
    simp [usr]
  | refine p => exact (refineField_spec hE p).map fun _ s h => ⟨_, h, rfl, rfl⟩
  | setEvaluation a p => exact (setEvaluation_spec hE _ p).map fun _ s h => ⟨_, h, rfl, rfl⟩
  | checkEmbedding a p =>
    refine Hoare.map (Q := fun _ => Rep K α I v) ?_ fun _ s h => ⟨_, h, rfl, rfl⟩
    unfold Env.checkEmbedding
    refine Hoare.ite (fun _ => ?_) (fun _ => Hoare.ub)
    refine Hoare.read fun x => Hoare.field fun f => ?_
    exact Hoare.ite (fun _ => Hoare.pure' fun s h => h.1.1) (fun _ => Hoare.abort)
  | isZero a =>
    unfold Env.exec Env.isZero
    refine Hoare.map (Q := fun b s => Rep K α I v s ∧ (b = true ↔ v (.user a) = 0)) ?_
      fun b s h => ⟨_, h.1, rfl, b, rfl, h.2⟩
    refine Hoare.read fun x => Hoare.pure' ?_
    rintro s ⟨h, rfl⟩
    exact ⟨h, by rw [isZero_iff hE.ok hE.root (h.wf _), h.val]⟩
  | isOne a =>
    unfold Env.exec Env.isOne
    refine Hoare.map (Q := fun b s => Rep K α I v s ∧ (b = true ↔ v (.user a) = 1)) ?_
      fun b s h => ⟨_, h.1, rfl, b, rfl, h.2⟩
    refine Hoare.read fun x => Hoare.pure' ?_
    rintro s ⟨h, rfl⟩
    exact ⟨h, by rw [isOne_iff hE.ok hE.root (h.wf _), h.val]⟩
  | isInteger a =>
    unfold Env.exec Env.isInteger
    refine Hoare.map (Q := fun b s => Rep K α I v s ∧ (b = true ↔ ∃ z : ℤ, v (.user a) = z)) ?_
      fun b s h => ⟨_, h.1, rfl, b, rfl, h.2⟩
    refine Hoare.read fun x => Hoare.pure' ?_
    rintro s ⟨h, rfl⟩
    exact ⟨h, by rw [isInteger_iff hE.ok hE.root (h.wf _), h.val]⟩
  | isRational a =>
    unfold Env.exec Env.isRational
    refine Hoare.map (Q := fun b s => Rep K α I v s ∧ (b = true ↔ ∃ z : ℚ, v (.user a) = z)) ?_
      fun b s h => ⟨_, h.1, rfl, b, rfl, h.2⟩
    refine Hoare.read fun x => Hoare.pure' ?_
    rintro s ⟨h, rfl⟩
    exact ⟨h, by rw [isRational_iff hE.ok hE.root (h.wf _), h.val]⟩
  | equal a b =>
    unfold Env.exec Env.equal
    refine Hoare.map (Q := fun c s => Rep K α I v s ∧ (c = true ↔ v (.user a) = v (.user b))) ?_
      fun b s h => ⟨_, h.1, rfl, b, rfl, h.2⟩
    refine Hoare.read fun x => Hoare.read fun y => Hoare.pure' ?_
    rintro s ⟨⟨h, rfl⟩, rfl⟩
    exact ⟨h, by rw [equal_iff hE.ok hE.root (h.wf _) (h.wf _), h.val, h.val]⟩
  | equalQ a c =>
    unfold Env.exec Env.equalQ
    refine Hoare.map (Q := fun b s => Rep K α I v s ∧ (b = true ↔ v (.user a) = c)) ?_
      fun b s h => ⟨_, h.1, rfl, b, rfl, h.2⟩
    refine Hoare.read fun x => Hoare.pure' ?_
    rintro s ⟨h, rfl⟩
    exact ⟨h, by rw [equalQ_iff hE.ok hE.root (h.wf _), h.val]⟩
  | sgn a => exact (sgn_spec hE (.user a)).map fun z s h => ⟨_, h.1, rfl, by rw [h.2]; rfl⟩
  | cmp a b =>
    exact (cmp_spec hE (a := .user a) (b := .user b) (by simp) (by simp)).map
      fun z s h => ⟨_, h.1, rfl, by rw [h.2]; rfl⟩
  | cmpQ a c =>
    exact (cmpQ_spec hE (a := .user a) (by simp) c false).map
      fun z s h => ⟨_, h.1, rfl, by rw [h.2]; rfl⟩
  | floor a => exact (round_rep hE .floor (.user a)).map fun z s h => ⟨_, h.1, rfl, z, rfl, h.2⟩
  | ceil a => exact (round_rep hE .ceil (.user a)).map fun z s h => ⟨_, h.1, rfl, z, rfl, h.2⟩
  | fdiv b c =>
    exact ((fdiv_spec hE (b := .user b) (c := .user c) (by simp) (by simp)).and (fdiv_ne hE)).map
      fun z s h => ⟨_, h.1.1, rfl, h.2, by rw [h.1.2]; rfl⟩
  | getArb a p =>
    refine ((getArb_spec hE (.user a) p).and (getArb_accuracy hE (.user a) p)).map
      fun b s h => ⟨_, h.1.1, rfl, ?_⟩
    obtain ⟨m, r, rfl, hr⟩ := h.2
    exact ⟨m, r, rfl, h.1.2, hr⟩
  | getD a rnd =>
    exact (getD_rounds hE (a := .user a) (by simp) rnd).map fun d s h => ⟨_, h.1, rfl, d, rfl, h.2⟩
  | getCfrac rem a n =>
    refine (getCfrac_spec hE (.user rem) (.user a) n).map fun l s h => ⟨_, h.1, ?_, by rw [h.2]; rfl⟩
    rw [usr_upd]; rfl

/-- Every sequence of calls that returns behaves like the exact calculator. -/
theorem run_spec (ops : List Op) : ∀ v : Reg → ℝ,
    Hoare (Rep K α I v) (E.run ops) fun as s =>
      ∃ v', Rep K α I v' s ∧ Steps K α (usr v) ops as (usr v') := by
  induction ops with
  | nil => intro v; exact Hoare.pure' fun s h => ⟨v, h, rfl⟩
  | cons op ops ih =>
    intro v
    refine Hoare.bind _ (exec_spec hE op v) fun a => ?_
    rintro s as s' ⟨w, hw, hst⟩ e
    refine Hoare.map (R := fun as s => ∃ v', Rep K α I v' s ∧
      Steps K α (usr v) (op :: ops) as (usr v')) (ih w) ?_ s as s' hw e
    rintro l s ⟨v', hv', hs⟩
    exact ⟨v', hv', usr w, hst, hs⟩

end

end EAntic
