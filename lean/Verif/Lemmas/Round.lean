import Verif.Lemmas.Query

/-! # Floor, ceiling, floor division, balls and continued fractions -/

namespace EAntic

open M

variable {K : Nf} {E : Env K} {α : ℝ} {I : Field → Prop} {v : Reg → ℝ}

/-- the rounding function of the template on the reals -/
noncomputable def Env.Kind.real : Env.Kind → ℝ → ℤ
  | .floor, x => ⌊x⌋
  | .ceil, x => ⌈x⌉

theorem Kind.real_mono (k : Env.Kind) {x y : ℝ} (h : x ≤ y) : k.real x ≤ k.real y := by
  cases k
  · exact Int.floor_mono h
  · exact Int.ceil_mono h

theorem Kind.real_rat (k : Env.Kind) (q : ℚ) : k.real q = k.arfInt q := by
  cases k
  · exact Rat.floor_cast q
  · exact Rat.ceil_cast q

theorem fdiv_floor {n d : ℤ} (hd : 0 < d) : Int.fdiv n d = ⌊(n : ℝ) / (d : ℝ)⌋ := by
  rw [Int.fdiv_eq_ediv_of_nonneg _ hd.le]
  have := Rat.floor_intCast_div_natCast n d.toNat
  have e : ((d.toNat : ℕ) : ℤ) = d := Int.toNat_of_nonneg hd.le
  rw [e] at this
  rw [← this, ← Rat.floor_cast (α := ℝ)]
  push_cast
  rw [show ((d.toNat : ℕ) : ℝ) = ((d.toNat : ℤ) : ℝ) by push_cast; rfl, e]

theorem fmpzDiv_spec (k : Env.Kind) {n d : ℤ} (hd : 0 < d) :
    k.fmpzDiv n d = k.real ((n : ℝ) / (d : ℝ)) := by
  cases k
  · exact fdiv_floor hd
  · simp only [Env.Kind.fmpzDiv, Env.Kind.real]
    rw [fdiv_floor hd, ← Int.ceil_neg]
    congr 1
    push_cast
    ring

theorem uniqueInt_spec {k : Env.Kind} {b : Ball} {p z : ℤ} (h : Env.uniqueInt k b p = some z)
    {x : ℝ} (hx : x ∈ b) : z = k.real x := by
  unfold Env.uniqueInt at h
  split at h
  · simp at h
  · rename_i l r hi
    split_ifs at h with he
    injection h with h
    have ⟨h1, h2⟩ := Ball.interval_spec hi hx
    have e1 := Kind.real_mono k h1
    have e2 := Kind.real_mono k h2
    rw [Kind.real_rat] at e1 e2
    rw [← he] at e2
    rw [← h]
    exact le_antisymm e1 e2

variable (hE : FieldInv E α I)
include hE

theorem round_spec (k : Env.Kind) (b : Reg) :
    Hoare (fun s => Rep K α I v s ∧ (v b ≠ 0 ∨ Clean s b)) (E.round k b)
      fun z s => Rep K α I v s ∧ z = k.real (v b) := by
  unfold Env.round
  refine Hoare.read fun x => Hoare.ite (fun hr => ?_) (fun hr => ?_)
  · refine Hoare.pure' ?_
    rintro s ⟨⟨h, h0⟩, rfl⟩
    refine ⟨h, ?_⟩
    rw [fmpzDiv_spec k (h.wf b).den_pos]
    congr 1
    by_cases hn : (s.heap b).elem.num = []
    · have hv : v b = 0 := by
        rw [← h.val, NfElem.val, realValue, hn]; simp [toPoly]
      have hs : (s.heap b).elem.stale = 0 := h0.resolve_left (fun h' => h' hv) hn
      rw [hv, NfElem.raw0, hn]
      simp [hs]
    · rw [← rat_val hE (h.wf b) hr hn, h.val]
  · refine Hoare.bind (fun _ => Rep K α I v) ?_ fun cond0 => ?_
    · unfold Env.ensureFinite
      refine Hoare.read fun y => Hoare.ite (fun _ => Hoare.pure' fun s h => h.1.1.1) fun _ => ?_
      refine Hoare.bind (fun _ => Rep K α I v)
        ((getCond_spec _ b).conseq (fun _ h => h.1.1.1) fun _ _ h => h) fun cond => ?_
      refine Hoare.bind _ (startPrec_spec _) fun prec => ?_
      refine Hoare.bind _ (setEvaluation_spec hE b _) fun _ => ?_
      refine Hoare.bind (fun _ => Rep K α I v) (Hoare.loop (J := fun _ => Rep K α I v) ?_ _ _)
        fun _ => Hoare.pure' fun s h => h
      intro prec
      unfold Env.finiteStep
      refine Hoare.read fun y => Hoare.ite (fun _ => Hoare.pure' fun s h => h.1) fun _ => ?_
      refine Hoare.bind (fun _ => Rep K α I v)
        ((refineField_spec hE _).conseq (fun _ h => h.1) fun _ _ h => h) fun _ => ?_
      refine Hoare.bind _ (setEvaluation_spec hE b _) fun _ => ?_
      exact Hoare.pure' fun s h => h
    · refine Hoare.read fun y => Hoare.field fun f => ?_
      split
      · rename_i z hz
        refine Hoare.pure' ?_
        rintro s ⟨⟨h, rfl⟩, rfl⟩
        exact ⟨h, uniqueInt_spec hz (h.enc b)⟩
      · refine Hoare.bind (fun _ => Rep K α I v) (Hoare.lift fun s _ h _ => h.1.1) fun size => ?_
        refine Hoare.bind _ (startPrec_spec _) fun prec => ?_
        refine Hoare.bind (fun _ => Rep K α I v) ?_ fun cond => ?_
        · cases cond0 with
          | none => exact getCond_spec _ b
          | some c => exact Hoare.pure' fun s h => h
        · refine Hoare.loop (J := fun _ => Rep K α I v) ?_ _ _
          intro prec
          unfold Env.roundStep
          refine Hoare.bind _ (setEvaluation_spec hE b _) fun _ => ?_
          refine Hoare.read fun y => ?_
          split
          · rename_i z hz
            refine Hoare.pure' ?_
            rintro s ⟨h, rfl⟩
            exact ⟨h, uniqueInt_spec hz (h.enc b)⟩
          · refine Hoare.bind (fun _ => Rep K α I v)
              ((refineField_spec hE _).conseq (fun _ h => h.1) fun _ _ h => h) fun _ => ?_
            exact Hoare.pure' fun s h => h

/-! ## Floor division -/

omit hE in
theorem uniqueFmpz_spec {q : Ball} {a : ℤ} (h : q.uniqueFmpz = some a) {x : ℝ} (hx : x ∈ q) :
    ∀ z : ℤ, (z : ℝ) ∈ q → z = a := by
  cases q with
  | whole => simp [Ball.uniqueFmpz] at h
  | fin m r =>
    simp only [Ball.uniqueFmpz] at h
    split_ifs at h with he
    injection h with h
    intro z hz
    rw [Ball.mem_fin] at hz
    have h1 : ⌈m - r⌉ ≤ z := Int.ceil_le.2 (by
      have := hz.1
      have h' : ((m - r : ℚ) : ℝ) ≤ ((z : ℚ) : ℝ) := by push_cast; linarith
      exact_mod_cast h')
    have h2 : z ≤ ⌊m + r⌋ := Int.le_floor.2 (by
      have := hz.2
      have h' : ((z : ℚ) : ℝ) ≤ ((m + r : ℚ) : ℝ) := by push_cast; linarith
      exact_mod_cast h')
    omega

/-- `⌊x⌋` from a short ball with the integer `a` in it -/
theorem floor_of_unique {q : Ball} {a : ℤ} (hr : q.radGeHalf = false) (h : q.uniqueFmpz = some a)
    {x : ℝ} (hx : x ∈ q) : ⌊x⌋ = if x < a then a - 1 else a := by
  cases q with
  | whole => simp [Ball.uniqueFmpz] at h
  | fin m r =>
    simp only [Ball.radGeHalf, decide_eq_false_iff_not, not_le] at hr
    simp only [Ball.uniqueFmpz] at h
    split_ifs at h with he
    injection h with h
    have hr' : (r : ℝ) < 1 / 2 := by
      have : ((r : ℚ) : ℝ) < ((1 / 2 : ℚ) : ℝ) := by exact_mod_cast hr
      simpa using this
    have a1 : ((m - r : ℚ) : ℝ) ≤ (a : ℝ) := by
      rw [← h]; exact_mod_cast Int.le_ceil (m - r)
    have a2 : (a : ℝ) ≤ ((m + r : ℚ) : ℝ) := by
      rw [← h, he]; exact_mod_cast Int.floor_le (m + r)
    push_cast at a1 a2
    rw [Ball.mem_fin] at hx
    split_ifs with hlt
    · rw [Int.floor_eq_iff]; push_cast; constructor <;> linarith
    · rw [Int.floor_eq_iff]; constructor <;> linarith

omit hE in
theorem floor_of_noInt {m r : ℚ} (h : (Ball.fin m r).containsInt = false) {x : ℝ}
    (hx : x ∈ Ball.fin m r) : ⌊x⌋ = ⌊m⌋ := by
  simp only [Ball.containsInt, decide_eq_false_iff_not, not_le] at h
  have hr := Ball.rad_nonneg hx
  rw [Ball.mem_fin] at hx
  have h1 : ⌊m + r⌋ = ⌊m - r⌋ := by
    have := Int.ceil_le_floor_add_one (m - r)
    have := Int.floor_mono (show m - r ≤ m + r by linarith)
    omega
  have e1 : ⌊x⌋ ≤ ⌊m + r⌋ := by
    rw [← Rat.floor_cast (α := ℝ)]; apply Int.floor_mono; push_cast; linarith
  have e2 : ⌊m - r⌋ ≤ ⌊x⌋ := by
    rw [← Rat.floor_cast (α := ℝ)]; apply Int.floor_mono; push_cast; linarith
  have e3 := Int.floor_mono (show m ≤ m + r by linarith)
  have e4 := Int.floor_mono (show m - r ≤ m by linarith)
  omega

theorem fdivFinish_spec {b c : Reg} (hb : b ≠ .tmp 2) (hc : c ≠ .tmp 2) (hb0 : b ≠ .tmp 0)
    (hc0 : c ≠ .tmp 0) (hv : v c ≠ 0) {q : Ball} (hq : v b / v c ∈ q)
    (hr : q.radGeHalf = false) :
    Hoare (Rep K α I v) (E.fdivFinish b c q) fun z s => Rep K α I v s ∧ z = ⌊v b / v c⌋ := by
  unfold Env.fdivFinish
  refine Hoare.ite (fun hi => ?_) (fun hi => ?_)
  · split
    · exact Hoare.ub
    · rename_i a ha
      refine (Hoare.withTmp hE (v := v) (Q := fun z w => w = v ∧ z = ⌊v b / v c⌋)
        (fun s h => h) ?_).conseq (fun _ h => h) ?_
      swap
      · rintro z s ⟨w, hw, rfl, hz⟩; exact ⟨hw, hz⟩
      refine Hoare.bind _ ((mulZ_spec hE (.tmp 2) c a).conseq (fun _ h => h.1) fun _ _ h => h)
        fun _ => ?_
      refine Hoare.bind _ (cmp_spec hE (a := .tmp 2) (b := b) (by decide) hb0) fun cm => ?_
      refine Hoare.imp (p := cm = sgnR (v c * a - v b)) ?_ ?_
      swap
      · rintro s ⟨_, h⟩
        rw [upd_upd, upd_same, upd_ne _ _ hb, upd_ne _ _ hc] at h
        exact h
      intro hcm
      refine Hoare.bind _ ((sgn_spec hE c).conseq (fun _ h => h.1) fun _ _ h => h) fun sg => ?_
      refine Hoare.imp (p := sg = sgnR (v c)) ?_ ?_
      swap
      · rintro s ⟨_, h⟩
        rw [upd_upd, upd_ne _ _ hc] at h
        exact h
      intro hsg
      have key : cm = sg ↔ v b / v c < a := by
        rw [hcm, hsg]
        rcases lt_or_gt_of_ne hv with h | h
        · rw [sgnR_neg h, div_lt_iff_of_neg h]
          rcases lt_trichotomy (v c * a - v b) 0 with h1 | h1 | h1
          · rw [sgnR_neg h1]; simp; linarith
          · rw [h1, sgnR_zero]; simp; linarith
          · rw [sgnR_pos h1]; simp; linarith
        · rw [sgnR_pos h, div_lt_iff₀ h]
          rcases lt_trichotomy (v c * a - v b) 0 with h1 | h1 | h1
          · rw [sgnR_neg h1]; simp; linarith
          · rw [h1, sgnR_zero]; simp; linarith
          · rw [sgnR_pos h1]; simp; linarith
      have hf := floor_of_unique hE hr ha hq
      refine Hoare.ite (fun he => ?_) (fun he => ?_)
      · refine Hoare.pure' ?_
        rintro s ⟨h, _⟩
        refine ⟨_, h, ?_, ?_⟩
        · rw [upd_upd, upd_upd, upd_self]
        · rw [hf, if_pos (key.1 he)]
      · refine Hoare.pure' ?_
        rintro s ⟨h, _⟩
        refine ⟨_, h, ?_, ?_⟩
        · rw [upd_upd, upd_upd, upd_self]
        · rw [hf, if_neg (fun h' => he (key.2 h'))]
  · split
    · rename_i m r
      refine Hoare.pure' ?_
      intro s h
      exact ⟨h, (floor_of_noInt (by simpa using hi) hq).symm⟩
    · exact Hoare.ub

theorem fdiv_spec {b c : Reg} (hb : ∀ n, b ≠ .tmp n) (hc : ∀ n, c ≠ .tmp n) :
    Hoare (Rep K α I v) (E.fdiv b c) fun z s => Rep K α I v s ∧ z = ⌊v b / v c⌋ := by
  unfold Env.fdiv
  refine Hoare.read fun z => Hoare.ite (fun hr => ?_) (fun hr => ?_)
  · have hv : ∀ s, Rep K α I v s ∧ s.heap c = z → v c ≠ 0 := by
      rintro s ⟨h, rfl⟩ h0
      have : (s.heap c).elem.isZero K = true :=
        (isZero_iff hE.ok hE.root (h.wf c)).2 (by rw [h.val, h0])
      have := ((isZero_struct (h.wf c)).1 this).1
      simp [this] at hr
    refine Hoare.imp (fun hv => ?_) hv
    refine Hoare.bind (fun _ => Rep K α I v)
      ((startPrec_spec _).conseq (fun _ h => h.1) fun _ _ h => h) fun prec => ?_
    refine Hoare.bind _ (getCond_spec _ b) fun bc => ?_
    refine Hoare.bind _ (getCond_spec _ c) fun cc => ?_
    refine Hoare.bind _ (setEvaluation_spec hE b _) fun _ => ?_
    refine Hoare.bind (fun _ => Rep K α I v) (Hoare.loop (J := fun _ => Rep K α I v) ?_ _ _)
      fun prec => ?_
    · intro prec
      unfold Env.fdivFiniteStep
      refine Hoare.read fun y => Hoare.ite (fun _ => Hoare.pure' fun s h => h.1) fun _ => ?_
      refine Hoare.bind (fun _ => Rep K α I v)
        ((refineField_spec hE _).conseq (fun _ h => h.1) fun _ _ h => h) fun _ => ?_
      refine Hoare.bind _ (setEvaluation_spec hE b _) fun _ => ?_
      exact Hoare.pure' fun s h => h
    refine Hoare.bind _ (setEvaluation_spec hE c _) fun _ => ?_
    refine Hoare.bind (fun _ => Rep K α I v) (Hoare.loop (J := fun _ => Rep K α I v) ?_ _ _)
      fun prec => ?_
    · intro prec
      unfold Env.fdivNonzeroStep
      refine Hoare.read fun y => Hoare.ite (fun _ => Hoare.pure' fun s h => h.1) fun _ => ?_
      refine Hoare.bind (fun _ => Rep K α I v)
        ((refineField_spec hE _).conseq (fun _ h => h.1) fun _ _ h => h) fun _ => ?_
      refine Hoare.bind _ (setEvaluation_spec hE c _) fun _ => ?_
      exact Hoare.pure' fun s h => h
    refine Hoare.read fun y => Hoare.read fun z => ?_
    refine Hoare.bind (fun q s => Rep K α I v s ∧ v b / v c ∈ q) ?_ fun q => ?_
    · refine Hoare.ite (fun hp => Hoare.pure' ?_) (fun _ => Hoare.ub)
      rintro s ⟨⟨h, rfl⟩, rfl⟩
      exact ⟨h, E.A.div_mem (by simpa [guardPrec] using hp) hv (h.enc b) (h.enc c)⟩
    refine Hoare.bind (fun q s => Rep K α I v s ∧ v b / v c ∈ q ∧ q.radGeHalf = false)
      ((Hoare.loop (J := fun x s => Rep K α I v s ∧ v b / v c ∈ x.2) ?_ _ (prec, q)).conseq
        (fun _ h => h) (fun _ _ h => h)) fun q => ?_
    · rintro ⟨prec, q⟩
      unfold Env.fdivQuotStep
      refine Hoare.ite (fun _ => ?_) (fun hq => Hoare.pure' ?_)
      · refine Hoare.bind (fun _ => Rep K α I v)
          ((refineField_spec hE _).conseq (fun _ h => h.1) fun _ _ h => h) fun _ => ?_
        refine Hoare.bind _ (setEvaluation_spec hE b _) fun _ => ?_
        refine Hoare.bind _ (setEvaluation_spec hE c _) fun _ => ?_
        refine Hoare.read fun y => Hoare.read fun z => ?_
        refine Hoare.ite (fun hp => Hoare.pure' ?_) (fun _ => Hoare.ub)
        rintro s ⟨⟨h, rfl⟩, rfl⟩
        exact ⟨h, E.A.div_mem (by simpa [guardPrec] using hp) hv (h.enc b) (h.enc c)⟩
      · rintro s ⟨h, hq'⟩
        exact ⟨h, hq', by simpa using hq⟩
    refine Hoare.imp (p := v b / v c ∈ q ∧ q.radGeHalf = false) (fun hq => ?_) (fun s h => h.2)
    exact (fdivFinish_spec hE (hb 2) (hc 2) (hb 0) (hc 0) hv hq.1 hq.2).conseq
      (fun _ h => h.1) fun _ _ h => h
  · refine (Hoare.withTmp hE (v := v) (Q := fun z w => w = v ∧ z = ⌊v b / v c⌋)
        (fun s h => h.1) ?_).conseq (fun _ h => h) ?_
    swap
    · rintro z s ⟨w, hw, rfl, hz⟩; exact ⟨hw, hz⟩
    refine Hoare.bind (fun _ s => Rep K α I (upd v (.tmp 3) (v b / v c)) s ∧
      (upd v (.tmp 3) (v b / v c) (.tmp 3) ≠ 0 ∨ Clean s (.tmp 3))) ?_ fun _ => ?_
    · have h1 := div_spec hE (v := upd v (.tmp 3) 0) (.tmp 3) b c
      rw [upd_upd, upd_ne _ _ (hb 3), upd_ne _ _ (hc 3)] at h1
      intro s a s' hs e
      have hrep := h1 s a s' hs.1 e
      refine ⟨hrep, ?_⟩
      by_cases h0 : v b / v c = 0
      swap
      · left; rw [upd_same]; exact h0
      right
      intro hn
      -- unfold the division
      obtain ⟨x, s1, e1, e⟩ := M.bind_ok.1 e
      simp only [M.read, Res.ok.injEq, Prod.mk.injEq] at e1; obtain ⟨rfl, rfl⟩ := e1
      obtain ⟨x, s1, e1, e⟩ := M.bind_ok.1 e
      simp only [M.read, Res.ok.injEq, Prod.mk.injEq] at e1; obtain ⟨rfl, rfl⟩ := e1
      obtain ⟨x, s1, e1, e⟩ := M.bind_ok.1 e
      simp only [M.read, Res.ok.injEq, Prod.mk.injEq] at e1; obtain ⟨rfl, rfl⟩ := e1
      obtain ⟨x, s1, e1, e⟩ := M.bind_ok.1 e
      simp only [M.field, Res.ok.injEq, Prod.mk.injEq] at e1; obtain ⟨rfl, rfl⟩ := e1
      split_ifs at e with hz
      · simp [M.ub] at e
      simp only [M.write, Res.ok.injEq, Prod.mk.injEq] at e
      obtain ⟨-, rfl⟩ := e
      have hz' : (s.heap c).elem.isZero K = false := by simpa using hz
      have hc0 : v c ≠ 0 := by
        intro h0
        refine hz ((isZero_iff hE.ok hE.root (hs.1.wf c)).2 ?_)
        rw [hs.1.val, upd_ne _ _ (hc 3), h0]
      have hb0 : (s.heap b).elem.isZero K = true := by
        rw [isZero_iff hE.ok hE.root (hs.1.wf b), hs.1.val, upd_ne _ _ (hb 3)]
        rcases div_eq_zero_iff.1 h0 with h | h
        · exact h
        · exact absurd h hc0
      have hst := E.N.div_zero_stale (d := (s.heap (.tmp 3)).elem) (hs.1.wf b) (hs.1.wf c) hz' hb0
      rw [write_heap, if_pos rfl]
      rcases hst with h | h
      · rw [h, hs.2]
        unfold NfElem.init NfElem.raw0
        split_ifs <;> rfl
      · exact h
    · refine (round_spec hE (v := upd v (.tmp 3) (v b / v c)) .floor (.tmp 3)).conseq
        (fun _ h => h) ?_
      rintro z s ⟨h, hz⟩
      refine ⟨_, h, ?_, ?_⟩
      · rw [upd_upd, upd_self]
      · rw [hz, upd_same]; rfl

/-! ## Balls -/

theorem getArb_spec (a : Reg) (p : ℤ) :
    Hoare (Rep K α I v) (E.getArb a p) fun b s => Rep K α I v s ∧ v a ∈ b := by
  unfold Env.getArb
  refine Hoare.read fun x => Hoare.ite (fun hz => Hoare.pure' ?_) (fun hz =>
    Hoare.ite (fun hr => Hoare.ite (fun hp => Hoare.pure' ?_) (fun _ => Hoare.ub)) (fun hr => ?_))
  · rintro s ⟨h, rfl⟩
    rw [isZero_iff hE.ok hE.root (h.wf a), h.val] at hz
    exact ⟨h, Ball.mem_exact.2 (by rw [hz]; simp)⟩
  · rintro s ⟨h, rfl⟩
    exact ⟨h, E.A.setRound_mem (by simpa [guardPrec] using hp) (h.enc a)⟩
  · refine Hoare.bind (fun _ => Rep K α I v)
      ((getCond_spec _ a).conseq (fun _ h => h.1) fun _ _ h => h) fun cond => ?_
    refine Hoare.bind _ (startPrec_spec _) fun prec => ?_
    refine Hoare.loop (J := fun _ => Rep K α I v) ?_ _ _
    intro pprec
    unfold Env.getArbStep
    refine Hoare.bind _ (setEvaluation_spec hE a _) fun _ => ?_
    refine Hoare.read fun y => Hoare.ite (fun _ =>
      Hoare.ite (fun hp => Hoare.pure' ?_) (fun _ => Hoare.ub)) (fun _ => ?_)
    · rintro s ⟨h, rfl⟩
      exact ⟨h, E.A.setRound_mem (by simpa [guardPrec] using hp) (h.enc a)⟩
    · refine Hoare.bind (fun _ => Rep K α I v)
        ((refineField_spec hE _).conseq (fun _ h => h.1) fun _ _ h => h) fun _ => ?_
      exact Hoare.pure' fun s h => h

end EAntic
