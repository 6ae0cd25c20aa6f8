import Verif.Spec.Ends
import Verif.Lemmas.ConvergeRound

/-! # Rules for calls that end -/

namespace EAntic

open M

section Rules

variable {β γ σ : Type} {V : Prop} {s : Mem}

theorem M.bind_res {m : M β} {f : β → M γ} {r : Res (β × Mem)} : m s = r →
    (m >>= f) s = (match r with
      | .ok (a, s') => f a s'
      | .running => .running
      | .abort => .abort
      | .throw w => .throw w
      | .ub => .ub) := by
  intro h
  show (match m s with
      | .ok (a, s') => f a s'
      | .running => .running
      | .abort => .abort
      | .throw w => .throw w
      | .ub => .ub) = _
  rw [h]

theorem Ends.congr {m m' : ℕ → M β} {Post : β → Mem → Prop} (h : Ends V m' s Post)
    (he : ∀ k, m k s = m' k s) : Ends V m s Post := by
  obtain ⟨n, h⟩ := h
  refine ⟨n, ?_⟩
  rcases h with ⟨z, s', hp, h⟩ | h | ⟨hv, h⟩
  · exact .inl ⟨z, s', hp, fun k hk => (he k).trans (h k hk)⟩
  · exact .inr (.inl (fun k hk => (he k).trans (h k hk)))
  · exact .inr (.inr ⟨hv, fun k hk => (he k).trans (h k hk)⟩)

theorem Ends.ret {m : ℕ → M β} {Post : β → Mem → Prop} {z : β} {s' : Mem} (hp : Post z s')
    (h : ∀ k, m k s = .ok (z, s')) : Ends V m s Post :=
  ⟨0, .inl ⟨z, s', hp, fun k _ => h k⟩⟩

theorem Ends.pure' {Post : β → Mem → Prop} {z : β} (hp : Post z s) :
    Ends V (fun _ => (pure z : M β)) s Post := Ends.ret hp fun _ => rfl

theorem Ends.mono {m : ℕ → M β} {Post Post' : β → Mem → Prop} (h : Ends V m s Post)
    (hp : ∀ z s', Post z s' → Post' z s') : Ends V m s Post' := by
  obtain ⟨n, h⟩ := h
  exact ⟨n, h.imp (fun ⟨z, s', h1, h2⟩ => ⟨z, s', hp z s' h1, h2⟩) id⟩

theorem Ends.weaken {V' : Prop} {m : ℕ → M β} {Post : β → Mem → Prop} (h : Ends V m s Post)
    (hv : V → V') : Ends V' m s Post := by
  obtain ⟨n, h⟩ := h
  exact ⟨n, h.imp id (Or.imp id fun ⟨h1, h2⟩ => ⟨hv h1, h2⟩)⟩

theorem Ends.bind {m : ℕ → M β} {f : ℕ → β → M γ} {Q : β → Mem → Prop} {Post : γ → Mem → Prop}
    (h1 : Ends V m s Q) (h2 : ∀ z s', Q z s' → Ends V (fun k => f k z) s' Post) :
    Ends V (fun k => m k >>= f k) s Post := by
  obtain ⟨n, h1⟩ := h1
  have step : ∀ {k r}, m k s = r → (m k >>= f k) s = (match r with
      | .ok (a, s') => f k a s'
      | .running => .running
      | .abort => .abort
      | .throw w => .throw w
      | .ub => .ub) := by
    intro k r h
    exact M.bind_res h
  rcases h1 with ⟨z, s', hq, h⟩ | h | ⟨hv, h⟩
  · obtain ⟨n', h'⟩ := h2 z s' hq
    refine ⟨max n n', ?_⟩
    have e : ∀ k, max n n' ≤ k → (m k >>= f k) s = f k z s' := fun k hk =>
      step (h k ((le_max_left _ _).trans hk))
    rcases h' with ⟨y, t, hp, g⟩ | g | ⟨hv, g⟩
    · exact .inl ⟨y, t, hp, fun k hk => (e k hk).trans (g k ((le_max_right _ _).trans hk))⟩
    · exact .inr (.inl (fun k hk => (e k hk).trans (g k ((le_max_right _ _).trans hk))))
    · exact .inr (.inr ⟨hv, fun k hk => (e k hk).trans (g k ((le_max_right _ _).trans hk))⟩)
  · exact ⟨n, .inr (.inl (fun k hk => step (h k hk)))⟩
  · exact ⟨n, .inr (.inr ⟨hv, fun k hk => step (h k hk)⟩)⟩

theorem Ends.read {r : Reg} {f : ℕ → Elem → M β} {Post : β → Mem → Prop}
    (h : Ends V (fun k => f k (s.heap r)) s Post) :
    Ends V (fun k => M.read r >>= f k) s Post := h.congr fun _ => rfl

theorem Ends.field {f : ℕ → Field → M β} {Post : β → Mem → Prop}
    (h : Ends V (fun k => f k s.fld) s Post) :
    Ends V (fun k => M.field >>= f k) s Post := h.congr fun _ => rfl

theorem Ends.ite {c : Prop} [Decidable c] {m m' : ℕ → M β} {Post : β → Mem → Prop}
    (h1 : c → Ends V m s Post) (h2 : ¬ c → Ends V m' s Post) :
    Ends V (fun k => if c then m k else m' k) s Post := by
  by_cases h : c
  · exact (h1 h).congr fun k => by rw [if_pos h]
  · exact (h2 h).congr fun k => by rw [if_neg h]

/-- what partial correctness says of the result -/
theorem Ends.and_hoare {m : ℕ → M β} {Post Post' : β → Mem → Prop} {Pre : Mem → Prop}
    (h : Ends V m s Post) (h' : ∀ k, Hoare Pre (m k) Post') (hp : Pre s) :
    Ends V m s fun z s' => Post z s' ∧ Post' z s' := by
  obtain ⟨n, h⟩ := h
  refine ⟨n, h.imp ?_ id⟩
  rintro ⟨z, s', h1, h2⟩
  exact ⟨z, s', ⟨h1, h' n s z s' hp (h2 n le_rfl)⟩, h2⟩

/-- The same for loops, with separate bounds for the step and the number of rounds. -/
def LoopEnds (V : Prop) (step : ℕ → σ → M (σ ⊕ β)) (x : σ) (s : Mem) (Post : β → Mem → Prop) :
    Prop :=
  ∃ n : ℕ, (∃ z s', Post z s' ∧ ∀ k j, n ≤ k → n ≤ j → M.loop (step k) j x s = .ok (z, s')) ∨
    (∀ k j, n ≤ k → n ≤ j → M.loop (step k) j x s = .throw "overflow") ∨
    (V ∧ ∀ k j, n ≤ k → n ≤ j → M.loop (step k) j x s = .abort)

theorem LoopEnds.ends {step : ℕ → σ → M (σ ⊕ β)} {x : σ} {Post : β → Mem → Prop}
    (h : LoopEnds V step x s Post) : Ends V (fun k => M.loop (step k) k x) s Post := by
  obtain ⟨n, h⟩ := h
  refine ⟨n, ?_⟩
  rcases h with ⟨z, s', hp, h⟩ | h | ⟨hv, h⟩
  · exact .inl ⟨z, s', hp, fun k hk => h k k hk hk⟩
  · exact .inr (.inl (fun k hk => h k k hk hk))
  · exact .inr (.inr ⟨hv, fun k hk => h k k hk hk⟩)

theorem LoopEnds.step {step : ℕ → σ → M (σ ⊕ β)} {x : σ} {Post : β → Mem → Prop}
    (h : Ends V (fun k => step k x) s fun r s' =>
      (∃ y, r = .inl y ∧ LoopEnds V step y s' Post) ∨ ∃ z, r = .inr z ∧ Post z s') :
    LoopEnds V step x s Post := by
  obtain ⟨n, h⟩ := h
  have run : ∀ {k j r}, step k x s = r → M.loop (step k) (j + 1) x s = (match r with
      | .ok (.inl y, s') => M.loop (step k) j y s'
      | .ok (.inr z, s') => .ok (z, s')
      | .running => .running
      | .abort => .abort
      | .throw w => .throw w
      | .ub => .ub) := by
    intro k j r h
    rw [M.loop, M.bind_res h]
    rcases r with ⟨(y | z), t⟩ | _ | _ | _ | _ <;> rfl
  have suc : ∀ {j n : ℕ}, n + 1 ≤ j → ∃ i, j = i + 1 ∧ n ≤ i := fun {j n} h => ⟨j - 1, by omega, by omega⟩
  rcases h with ⟨r, s', ⟨y, rfl, n', h'⟩ | ⟨z, rfl, hp⟩, h⟩ | h | ⟨hv, h⟩
  · refine ⟨max n n' + 1, ?_⟩
    have e : ∀ k j, max n n' + 1 ≤ k → max n n' + 1 ≤ j → ∃ i, n' ≤ i ∧ n' ≤ k ∧
        M.loop (step k) j x s = M.loop (step k) i y s' := by
      intro k j hk hj
      obtain ⟨i, rfl, hi⟩ := suc hj
      exact ⟨i, (le_max_right _ _).trans hi, by have := le_max_right n n'; omega,
        run (h k (by have := le_max_left n n'; omega))⟩
    rcases h' with ⟨z, t, hp, g⟩ | g | ⟨hv, g⟩
    · refine .inl ⟨z, t, hp, fun k j hk hj => ?_⟩
      obtain ⟨i, hi, hk', e⟩ := e k j hk hj
      exact e.trans (g k i hk' hi)
    · refine .inr (.inl (fun k j hk hj => ?_))
      obtain ⟨i, hi, hk', e⟩ := e k j hk hj
      exact e.trans (g k i hk' hi)
    · refine .inr (.inr ⟨hv, fun k j hk hj => ?_⟩)
      obtain ⟨i, hi, hk', e⟩ := e k j hk hj
      exact e.trans (g k i hk' hi)
  · refine ⟨n + 1, .inl ⟨z, s', hp, fun k j hk hj => ?_⟩⟩
    obtain ⟨i, rfl, hi⟩ := suc hj
    exact run (h k (by omega))
  · refine ⟨n + 1, .inr (.inl (fun k j hk hj => ?_))⟩
    obtain ⟨i, rfl, hi⟩ := suc hj
    exact run (h k (by omega))
  · refine ⟨n + 1, .inr (.inr ⟨hv, fun k j hk hj => ?_⟩)⟩
    obtain ⟨i, rfl, hi⟩ := suc hj
    exact run (h k (by omega))

end Rules

/-! ## Evaluation and refinement -/

section Steps

variable {K : Nf} {α : ℝ} {I : Field → Prop} {v : Reg → ℝ} {A : ArbOps} {N : NfOps K}
  {R : ℕ → Field → ℤ → Res Field} {V : Prop} {s : Mem}

/-- a ball with `p` correct bits is small -/
theorem within_of_accuracy {b : Ball} {x : ℝ} {p : ℤ} (hx : x ∈ b) (h3 : 3 ≤ p)
    (h : p ≤ b.relAccuracyBits) : b.Within x (|x| * 2 ^ (3 - p)) := by
  refine ⟨hx, ?_⟩
  cases b with
  | whole =>
    simp [Ball.relAccuracyBits, Ball.relErrorBits, Ball.arfPrecExact] at h
    omega
  | fin m r =>
    have h0 := Ball.rad_nonneg hx
    refine ⟨m, r, rfl, ?_⟩
    by_cases hr0 : r = 0
    · rw [hr0]; simp only [Rat.cast_zero]; positivity
    by_cases hm0 : m = 0
    · simp [Ball.relAccuracyBits, Ball.relErrorBits, Ball.arfPrecExact, hr0, hm0] at h
      omega
    simp only [Ball.relAccuracyBits, Ball.relErrorBits, if_neg hr0, if_neg hm0] at h
    have hA : (0 : ℤ) < Ball.arfPrecExact := by decide
    have h1 : bexp r ≤ bexp m - 1 - p := by
      generalize Ball.arfPrecExact = P at *
      omega
    have h2 : r < |m| * 2 ^ (-p) := by
      have a1 := bexp_upper r
      have a2 := bexp_lower hm0
      rw [abs_of_nonneg h0] at a1
      have a3 : (2 : ℚ) ^ bexp r ≤ 2 ^ (bexp m - 1) * 2 ^ (-p) := by
        rw [← zpow_add₀ (by norm_num)]
        exact zpow_le_zpow_right₀ (by norm_num) (by omega)
      have a4 : (0 : ℚ) < 2 ^ (-p) := by positivity
      nlinarith
    have h2' : (r : ℝ) < |(m : ℝ)| * 2 ^ (-p) := by
      have : ((r : ℚ) : ℝ) < ((|m| * 2 ^ (-p) : ℚ) : ℝ) := by exact_mod_cast h2
      push_cast at this
      exact this
    have h4 : (2 : ℝ) ^ (-p) ≤ 1 / 8 := by
      have : (2 : ℝ) ^ (-p) ≤ 2 ^ (-3 : ℤ) := zpow_le_zpow_right₀ (by norm_num) (by omega)
      rw [show (2 : ℝ) ^ (-3 : ℤ) = 1 / 8 by norm_num] at this
      exact this
    have h5 : (0 : ℝ) < 2 ^ (-p) := by positivity
    rw [Ball.mem_fin] at hx
    have h6 : |(m : ℝ)| ≤ |x| + r := by
      rw [abs_le]
      have := neg_abs_le x
      have := le_abs_self x
      constructor <;> linarith [hx.1, hx.2]
    have h7 := abs_nonneg (m : ℝ)
    have h8 : |(m : ℝ)| ≤ 2 * |x| := by nlinarith
    rw [show (3 - p : ℤ) = 3 + -p by ring, zpow_add₀ (by norm_num), show (2 : ℝ) ^ (3 : ℤ) = 8 by norm_num]
    have h9 := mul_le_mul_of_nonneg_right h8 h5.le
    nlinarith [abs_nonneg x]

theorem setEvaluation_ends (hE : ∀ k, FieldInv (envs A N R k) α I) {a : Reg} {p : ℤ} (hp : 2 ≤ p)
    (hs : Rep K α I v s) :
    Ends V (fun k => (envs A N R k).setEvaluation a p) s fun _ s' => Rep K α I v s' ∧
      s' = s.write a ⟨(s.heap a).elem, (envs A N R 0).evalBall s.fld (s.heap a).elem p⟩ := by
  have he : ∀ k, (envs A N R k).setEvaluation a p s =
      .ok ((), s.write a ⟨(s.heap a).elem, (envs A N R 0).evalBall s.fld (s.heap a).elem p⟩) := by
    intro k
    unfold Env.setEvaluation
    rw [if_pos (by simpa [guardPrec] using hp)]; rfl
  exact .ret ⟨setEvaluation_spec (hE 0) a p s _ _ hs (he 0), rfl⟩ he

theorem refineField_ends' (hE : ∀ k, FieldInv (envs A N R k) α I) (hR : RefinesOr R I) (p : ℤ)
    (hs : Rep K α I v s) :
    Ends V (fun k => (envs A N R k).refineField p) s fun _ s' => Rep K α I v s' ∧
      s'.heap = s.heap ∧ p ≤ s'.fld.emb.relAccuracyBits := by
  have run : ∀ {k r}, R k s.fld p = r → (envs A N R k).refineField p s = (match r with
      | .ok f' => .ok ((), { s with fld := f' })
      | .running => .running
      | .abort => .abort
      | .throw w => .throw w
      | .ub => .ub) := by
    intro k r h
    show (M.field >>= fun f => M.lift (R k f p) >>= M.setField) s = _
    show (M.lift (R k s.fld p) >>= M.setField) s = _
    rw [h]
    cases r <;> rfl
  obtain ⟨n, ⟨f', h, hw⟩ | h⟩ := hR s.fld p hs.inv
  · have hi := (hE n).refine hs.inv (h n le_rfl)
    exact ⟨n, .inl ⟨(), { s with fld := f' }, ⟨hs.setField hi, rfl, hw⟩, fun k hk => run (h k hk)⟩⟩
  · exact ⟨n, .inr (.inl (fun k hk => run (h k hk)))⟩

theorem refineField_ends (hE : ∀ k, FieldInv (envs A N R k) α I) (hR : RefinesOr R I) {p : ℤ}
    (hp : 3 ≤ p) (hs : Rep K α I v s) :
    Ends V (fun k => (envs A N R k).refineField p) s fun _ s' => Rep K α I v s' ∧
      s'.heap = s.heap ∧ s'.fld.emb.Within α (|α| * 2 ^ (3 - p)) ∧
      p ≤ s'.fld.emb.relAccuracyBits :=
  (refineField_ends' hE hR p hs).mono fun _ _ ⟨h1, h2, h3⟩ =>
    ⟨h1, h2, within_of_accuracy ((hE 0).enc h1.inv) hp h3, h3⟩

theorem getCond_ends {a : Reg} {x : ℝ} (hl : LegalAt K α I x) (hs : Rep K α I v s) (hx : v a = x)
    (hf : 2 ≤ s.fld.prec) :
    Ends V (fun k => (envs A N R k).getCond a) s fun z s' => s' = s ∧
      2 ≤ max s.fld.prec s.fld.emb.relAccuracyBits + z := by
  obtain ⟨c, hc, H⟩ := getCond_ok hf (hl s.fld hs.inv _ (hs.wf a) ((hs.val a).trans hx))
  have he : ∀ k, (envs A N R k).getCond a s = .ok (c, s) := by
    intro k
    obtain ⟨z, s', e, rfl, rfl⟩ := H (envs A N R k) a (fun t => t = s) (by rintro t rfl; exact ⟨rfl, rfl⟩) s rfl
    exact e
  exact .ret ⟨rfl, hc⟩ he

theorem startPrec_ends :
    Ends V (fun _ => Env.startPrec) s fun z s' => s' = s ∧
      z = max s.fld.prec s.fld.emb.relAccuracyBits := .ret ⟨rfl, rfl⟩ fun _ => rfl

/-- check the ball at `a`; if `done` stop, else refine and evaluate -/
def checkStep {β : Type} (E : Env K) (a : Reg) (cond : ℤ) (done : Ball → ℤ → Option β) (prec : ℤ) :
    M (ℤ ⊕ β) := do
  let x ← M.read a
  match done x.emb prec with
  | some z => pure (.inr z)
  | none =>
    E.refineField (prec * 2)
    E.setEvaluation a (prec * 2 + cond)
    pure (.inl (prec * 2))

theorem checkLoop_ends {β : Type} (hE : ∀ k, FieldInv (envs A N R k) α I) (hR : RefinesOr R I)
    {a : Reg} {e : NfElem} {cond P : ℤ} {done : Ball → ℤ → Option β}
    (hev : ∀ f p, P ≤ p → f.emb.Within α (|α| * 2 ^ (3 - p)) →
      ∃ z, done ((envs A N R 0).evalBall f e (p + cond)) p = some z) :
    ∀ (d : ℕ) (prec : ℤ) (s : Mem), 2 ≤ prec → 2 ≤ prec + cond → P ≤ prec * 2 ^ d →
      Rep K α I v s → (s.heap a).elem = e → (d = 0 → ∃ z, done (s.heap a).emb prec = some z) →
      LoopEnds V (fun k => checkStep (envs A N R k) a cond done) prec s fun z s' =>
        Rep K α I v s' ∧ (∀ r, (s'.heap r).elem = (s.heap r).elem) ∧
          (s'.fld = s.fld ∨ prec ≤ s'.fld.emb.relAccuracyBits) ∧ ∃ p, prec ≤ p ∧ done (s'.heap a).emb p = some z := by
  intro d
  induction d with
  | zero =>
    intro prec s h2 hc hP hs he hd
    obtain ⟨z, hz⟩ := hd rfl
    refine LoopEnds.step (Ends.read ?_)
    simp only [hz]
    exact Ends.pure' (.inr ⟨z, rfl, hs, fun _ => rfl, .inl rfl, prec, le_rfl, hz⟩)
  | succ d ih =>
    intro prec s h2 hc hP hs he _
    refine LoopEnds.step (Ends.read ?_)
    cases hz : done (s.heap a).emb prec with
    | some z =>
      simp only
      exact Ends.pure' (.inr ⟨z, rfl, hs, fun _ => rfl, .inl rfl, prec, le_rfl, hz⟩)
    | none =>
      simp only
      refine (refineField_ends hE hR (by omega) hs).bind ?_
      rintro - s₁ ⟨r1, g1, w1, k1⟩
      refine (setEvaluation_ends hE (by omega) r1).bind ?_
      rintro - s₂ ⟨r2, rfl⟩
      refine Ends.pure' (.inl ⟨prec * 2, rfl, ?_⟩)
      have hel : ∀ r, ((s₁.write a ⟨(s₁.heap a).elem, (envs A N R 0).evalBall s₁.fld (s₁.heap a).elem
          (prec * 2 + cond)⟩).heap r).elem = (s.heap r).elem := by
        intro r
        rw [write_heap]
        split_ifs with h
        · rw [h, g1]
        · rw [g1]
      obtain ⟨n, hn⟩ := ih (prec * 2) _ (by omega) (by omega) (by rw [pow_succ] at hP; linarith) r2
        ((hel a).trans he) (by
          rintro rfl
          rw [write_heap, if_pos rfl, g1, he]
          exact hev _ _ (by simpa using hP) w1)
      refine ⟨n, hn.imp ?_ id⟩
      rintro ⟨z, s', ⟨q1, q2, qf, p, q3, q4⟩, q5⟩
      refine ⟨z, s', ⟨q1, fun r => (q2 r).trans (hel r), .inr ?_, p, by omega, q4⟩, q5⟩
      rcases qf with qf | qf
      · rw [qf]; show prec ≤ s₁.fld.emb.relAccuracyBits; omega
      · omega

theorem watch_ends {β : Type} (hE : ∀ k, FieldInv (envs A N R k) α I) (hR : RefinesOr R I)
    {a : Reg} {e : NfElem} {cond : ℤ} {done : Ball → ℤ → Option β}
    (hev : ∃ P : ℤ, ∀ f p, P ≤ p → f.emb.Within α (|α| * 2 ^ (3 - p)) →
      ∃ z, done ((envs A N R 0).evalBall f e (p + cond)) p = some z)
    {prec : ℤ} (h2 : 2 ≤ prec) (hc : 2 ≤ prec + cond) (hs : Rep K α I v s) (he : (s.heap a).elem = e) :
    Ends V (fun k => M.loop (checkStep (envs A N R k) a cond done) k prec) s fun z s' =>
        Rep K α I v s' ∧ (∀ r, (s'.heap r).elem = (s.heap r).elem) ∧
          (s'.fld = s.fld ∨ prec ≤ s'.fld.emb.relAccuracyBits) ∧
          ∃ p, prec ≤ p ∧ done (s'.heap a).emb p = some z := by
  obtain ⟨P, hP⟩ := hev
  exact (checkLoop_ends hE hR hP (P.toNat + 1) prec s h2 hc (doublings P prec h2) hs he (by simp)).ends

/-- the same for loops that evaluate first -/
theorem evalLoop_ends {β : Type} (hE : ∀ k, FieldInv (envs A N R k) α I) (hR : RefinesOr R I)
    {a : Reg} {e : NfElem} {cond P : ℤ} {done : Ball → ℤ → Option β}
    (hev : ∀ f p, P ≤ p → f.emb.Within α (|α| * 2 ^ (3 - p)) →
      ∃ z, done ((envs A N R 0).evalBall f e (p + cond)) p = some z) :
    ∀ (d : ℕ) (prec : ℤ) (s : Mem), 2 ≤ prec → 2 ≤ prec + cond → P ≤ prec * 2 ^ d →
      Rep K α I v s → (s.heap a).elem = e → (d = 0 → s.fld.emb.Within α (|α| * 2 ^ (3 - prec))) →
      LoopEnds V (fun k => evalStep (envs A N R k) a cond done) prec s fun _ s' =>
        Rep K α I v s' := by
  intro d
  induction d with
  | zero =>
    intro prec s h2 hc hP hs he hw
    refine LoopEnds.step ?_
    refine (setEvaluation_ends hE (by omega) hs).bind ?_
    rintro - s₁ ⟨r1, rfl⟩
    refine Ends.read ?_
    obtain ⟨z, hz⟩ := hev s.fld prec (by simpa using hP) (hw rfl)
    rw [write_heap, if_pos rfl, he]
    simp only [hz]
    exact Ends.pure' (.inr ⟨z, rfl, he ▸ r1⟩)
  | succ d ih =>
    intro prec s h2 hc hP hs he _
    refine LoopEnds.step ?_
    refine (setEvaluation_ends hE (by omega) hs).bind ?_
    rintro - s₁ ⟨r1, hs1⟩
    refine Ends.read ?_
    cases hz : done (s₁.heap a).emb prec with
    | some z =>
      simp only
      exact Ends.pure' (.inr ⟨z, rfl, r1⟩)
    | none =>
      simp only
      refine (refineField_ends hE hR (by omega) r1).bind ?_
      rintro - s₂ ⟨r2, g2, w2, -⟩
      refine Ends.pure' (.inl ⟨prec * 2, rfl, ?_⟩)
      refine ih (prec * 2) _ (by omega) (by omega) (by rw [pow_succ] at hP; linarith) r2 ?_ fun _ => w2
      rw [g2, hs1, write_heap, if_pos rfl, he]

theorem evalWatch_ends {β : Type} (hE : ∀ k, FieldInv (envs A N R k) α I) (hR : RefinesOr R I)
    {a : Reg} {e : NfElem} {cond : ℤ} {done : Ball → ℤ → Option β}
    (hev : ∃ P : ℤ, ∀ f p, P ≤ p → f.emb.Within α (|α| * 2 ^ (3 - p)) →
      ∃ z, done ((envs A N R 0).evalBall f e (p + cond)) p = some z)
    {prec : ℤ} (h2 : 2 ≤ prec) (hc : 2 ≤ prec + cond) (hs : Rep K α I v s) (he : (s.heap a).elem = e) :
    Ends V (fun k => M.loop (evalStep (envs A N R k) a cond done) k prec) s fun _ s' =>
        Rep K α I v s' := by
  obtain ⟨P, hP⟩ := hev
  exact (evalLoop_ends hE hR hP (P.toNat + 1) prec s h2 hc (doublings P prec h2) hs he (by simp)).ends

end Steps

end EAntic
