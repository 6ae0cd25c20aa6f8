import Verif.Lemmas.Assertions

/-! # Stopping early changes nothing else: C++ programs -/

namespace EAntic.Cxx

/-- the same outcome, or an early stop -/
def Out.Below {β : Type} (a r : Prop) (x y : Out β) : Prop := x = y ∨ (a ∧ x = .abort) ∨ (r ∧ x = .running)

/-- the same for pieces of code -/
def BelowW {β : Type} (a r : Prop) (m m' : W β) : Prop := ∀ w, (m w).Below a r (m' w)

section

variable {β γ : Type} {a r : Prop} {m m' : W β}

theorem BelowW.refl (m : W β) : BelowW a r m m := fun _ => .inl rfl

theorem BelowW.of_eq (h : m = m') : BelowW a r m m' := h ▸ BelowW.refl m

theorem BelowW.bind {f f' : β → W γ} (h : BelowW a r m m') (hf : ∀ z, BelowW a r (f z) (f' z)) :
    BelowW a r (m >>= f) (m' >>= f') := by
  intro w
  show Out.Below a r (match m w with
      | .ok (a, w') => f a w'
      | .running => .running
      | .abort => .abort
      | .throw s w' => .throw s w'
      | .ub => .ub) (match m' w with
      | .ok (a, w') => f' a w'
      | .running => .running
      | .abort => .abort
      | .throw s w' => .throw s w'
      | .ub => .ub)
  rcases h w with h | ⟨ha, h⟩ | ⟨hr, h⟩
  · rw [h]
    rcases m' w with ⟨z, t⟩ | _ | _ | _ | _
    · exact hf z t
    all_goals exact .inl rfl
  · rw [h]
    exact .inr (.inl ⟨ha, rfl⟩)
  · rw [h]
    exact .inr (.inr ⟨hr, rfl⟩)

theorem BelowW.ite {c : Prop} [Decidable c] {n n' : W β} (h : BelowW a r m m') (h' : BelowW a r n n') :
    BelowW a r (if c then m else n) (if c then m' else n') := by
  split_ifs
  · exact h
  · exact h'

theorem BelowW.unwinding {x : Reg} (h : BelowW a r m m') : BelowW a r (unwinding x m) (unwinding x m') := by
  intro w
  unfold Cxx.unwinding
  rcases h w with h | ⟨ha, h⟩ | ⟨hr, h⟩
  · rw [h]
    exact .inl rfl
  · rw [h]
    exact .inr (.inl ⟨ha, rfl⟩)
  · rw [h]
    exact .inr (.inr ⟨hr, rfl⟩)

theorem BelowW.attempt (h : BelowW a r m m') : BelowW a r (attempt m) (attempt m') := by
  intro w
  unfold Cxx.attempt
  rcases h w with h | ⟨ha, h⟩ | ⟨hr, h⟩
  · rw [h]
    exact .inl rfl
  · rw [h]
    exact .inr (.inl ⟨ha, rfl⟩)
  · rw [h]
    exact .inr (.inr ⟨hr, rfl⟩)

end

variable {K : ℕ → Nf} {A : ℕ → ArbOps} {N : ∀ i, NfOps (K i)} {strict : Bool} {bits : Widths}
  {nd nd' : Bool} {k k' : ℕ} {a r : Prop}

local notation "L₁" => build K A N strict bits nd k
local notation "L₂" => build K A N strict bits nd' k'

section

variable (hn : nd = nd' ∨ (a ∧ nd = false ∧ nd' = true)) (hk : k = k' ∨ (r ∧ k ≤ k'))

theorem call_below {β : Type} (i : ℕ) (cs : List ℕ) {m m' : M β} (h : BelowM a r m m') :
    BelowW a r (call L₁ i cs m) (call L₂ i cs m') := by
  intro w
  unfold call
  by_cases hc : cs.all (owns w i) = true
  · rw [if_pos hc, if_pos hc]
    have e : view L₁ w i cs = view L₂ w i cs := rfl
    rw [e]
    rcases h (view L₂ w i cs) with h | ⟨ha, h⟩ | ⟨hr, h⟩
    · rw [h]
      exact .inl rfl
    · rw [h]
      exact .inr (.inl ⟨ha, rfl⟩)
    · rw [h]
      exact .inr (.inr ⟨hr, rfl⟩)
  · rw [if_neg hc, if_neg hc]
    exact .inl rfl

theorem call1_below {β : Type} (x : Reg) {m m' : (i : ℕ) → Reg → M β} (h : ∀ i y, BelowM a r (m i y) (m' i y)) :
    BelowW a r (call1 L₁ x m) (call1 L₂ x m') := by
  unfold call1
  exact (BelowW.refl _).bind fun o => (BelowW.refl _).bind fun i => call_below _ _ (h _ _)

include hn

omit hn in
theorem same {β : Type} {m : Lib → W β} (h : m L₁ = m L₂) : BelowW a r (m L₁) (m L₂) := .of_eq h

theorem assert_below (b : Bool) : BelowW a r (W.assert L₁ b) (W.assert L₂ b) := by
  rcases hn with rfl | ⟨ha, rfl, rfl⟩
  · exact BelowW.refl _
  · intro w
    cases b
    · exact .inr (.inl ⟨ha, rfl⟩)
    · exact .inl rfl

theorem toMpz_below (x : Reg) : BelowW a r (toMpz L₁ x) (toMpz L₂ x) := by
  unfold toMpz
  exact BelowW.bind (.of_eq rfl) fun _ => (assert_below hn _).bind fun _ => .of_eq rfl

theorem toMpq_below (x : Reg) : BelowW a r (toMpq L₁ x) (toMpq L₂ x) := by
  unfold toMpq
  exact BelowW.bind (.of_eq rfl) fun _ => BelowW.ite (.refl _) (BelowW.bind (.of_eq rfl) fun _ =>
    (assert_below hn _).bind fun _ => .of_eq rfl)

theorem num_below (x : Reg) : BelowW a r (num L₁ x) (num L₂ x) := by
  unfold num
  exact (BelowW.refl _).bind fun _ => (BelowW.refl _).bind fun _ => BelowW.bind (.of_eq rfl) fun _ =>
    BelowW.ite (.refl _) (BelowW.ite ((assert_below hn _).bind fun _ => .refl _) (BelowW.ite (.refl _)
      ((assert_below hn _).bind fun _ => .refl _)))

theorem constructVec_below (x : Reg) (f : ℕ) (n : List ℤ) (d : ℤ) :
    BelowW a r (constructVec L₁ x f n d) (constructVec L₂ x f n d) := by
  unfold constructVec
  exact (assert_below hn _).bind fun _ => .of_eq rfl

theorem constructFrom_below (x : Reg) (f : ℕ) (y : Reg) :
    BelowW a r (constructFrom L₁ x f y) (constructFrom L₂ x f y) := by
  intro w
  unfold constructFrom
  rcases w.obj x with _ | _
  · exact ((BelowW.refl _).bind fun _ => (BelowW.refl _).bind fun _ => BelowW.bind (.of_eq rfl) fun _ =>
      (BelowW.refl _).bind fun _ => BelowW.ite (.of_eq rfl) (BelowW.bind (.of_eq rfl) fun _ =>
        BelowW.ite ((toMpq_below hn y).bind fun _ => .of_eq rfl) (.refl _))) w
  · exact .inl rfl

theorem copyCtor_below (x y : Reg) : BelowW a r (copyCtor L₁ x y) (copyCtor L₂ x y) :=
  (BelowW.refl _).bind fun _ => constructFrom_below hn _ _ _

theorem coerce_below (x : Reg) (f : ℕ) : BelowW a r (coerce L₁ x f) (coerce L₂ x f) := by
  unfold coerce
  exact (BelowW.refl _).bind fun _ => BelowW.ite (.refl _) (BelowW.bind (.of_eq rfl) fun _ =>
    BelowW.ite (.of_eq rfl) (BelowW.bind (.of_eq rfl) fun _ => BelowW.ite (.of_eq rfl)
      (BelowW.bind (.of_eq rfl) fun _ => BelowW.ite ((constructFrom_below hn _ _ _).bind fun _ => .refl _)
        (.refl _))))

theorem binop_below (b : BinK) (x y : Reg) : BelowW a r (binop L₁ b x y) (binop L₂ b x y) := by
  unfold binop
  exact (BelowW.refl _).bind fun _ => (BelowW.refl _).bind fun _ => BelowW.ite (.of_eq (by cases b <;> rfl))
    (BelowW.ite (.refl _) (BelowW.bind (.of_eq rfl) fun _ => BelowW.ite (.of_eq (by cases b <;> rfl))
      (BelowW.bind (.of_eq rfl) fun _ => BelowW.ite (.of_eq (by cases b <;> rfl))
        ((coerce_below hn _ _).bind fun _ => .of_eq (by cases b <;> rfl)))))

theorem binary_below (b : BinK) (x y z : Reg) : BelowW a r (binary L₁ b x y z) (binary L₂ b x y z) :=
  (copyCtor_below hn _ _).bind fun _ => (binop_below hn _ _ _).unwinding

theorem neg_below (x y : Reg) : BelowW a r (neg L₁ x y) (neg L₂ x y) :=
  (copyCtor_below hn _ _).bind fun _ => .of_eq rfl

omit hn in
include hk in
/-- refinements -/
theorem env_below (hn : nd = nd' ∨ (a ∧ nd = false ∧ nd' = true)) (i : ℕ) (f : Field) (p : ℤ) :
    (refineEmbedding (A i) nd k f p).Below a r (refineEmbedding (A i) nd' k' f p) :=
  refineEmbedding_below hn hk f p

include hk

theorem floorW_below (x : Reg) : BelowW a r (floor L₁ x) (floor L₂ x) :=
  call1_below x fun i _ => round_below (env_below (A := A) hk hn i) hk .floor _

theorem ceilW_below (x : Reg) : BelowW a r (ceil L₁ x) (ceil L₂ x) :=
  call1_below x fun i _ => round_below (env_below (A := A) hk hn i) hk .ceil _

theorem sgnW_below (x : Reg) : BelowW a r (sgn L₁ x) (sgn L₂ x) :=
  call1_below x fun i _ => sgn_below (env_below (A := A) hk hn i) hk _

theorem toDouble_below (x : Reg) : BelowW a r (toDouble L₁ x) (toDouble L₂ x) :=
  call1_below x fun i _ => getD_below (env_below (A := A) hk hn i) hk hn _ _

theorem fdivRaw_below (x y : Reg) : BelowW a r (fdivRaw L₁ x y) (fdivRaw L₂ x y) :=
  (BelowW.refl _).bind fun _ => (BelowW.refl _).bind fun _ => (BelowW.refl _).bind fun i =>
    call_below _ _ (fdiv_below (env_below (A := A) hk hn i) hk _ _)

theorem cmpQW_below (x : Reg) (q : ℚ) : BelowW a r (cmpQ L₁ x q) (cmpQ L₂ x q) :=
  call1_below x fun i _ => cmpQ_below (env_below (A := A) hk hn i) hk _ _ hn

theorem floordiv_below (x y : Reg) : BelowW a r (floordiv L₁ x y) (floordiv L₂ x y) := by
  unfold floordiv
  refine (BelowW.refl _).bind fun _ => (BelowW.refl _).bind fun _ => BelowW.ite
    (BelowW.bind (.of_eq rfl) fun _ => BelowW.ite ?_ (BelowW.bind (.of_eq rfl) fun _ => BelowW.ite ?_ ?_)) ?_
  · exact (binary_below hn _ _ _ _).bind fun _ => (floorW_below hn hk _).bind fun _ => .refl _
  · exact (toMpq_below hn _).bind fun _ => BelowW.bind (.of_eq rfl) fun _ =>
      (fdivRaw_below hn hk _ _).bind fun _ => .refl _
  · exact fdivRaw_below hn hk _ _
  · exact fdivRaw_below hn hk _ _

omit hk in
theorem eq_below (x y : Reg) : BelowW a r (eq L₁ x y) (eq L₂ x y) := by
  unfold eq
  exact (BelowW.refl _).bind fun _ => (BelowW.refl _).bind fun _ => (BelowW.refl _).bind fun _ =>
    (BelowW.refl _).bind fun _ => BelowW.ite (.of_eq rfl) (BelowW.bind (.of_eq rfl) fun _ =>
      BelowW.ite (BelowW.bind (.of_eq rfl) fun _ => BelowW.ite (.refl _) ((toMpq_below hn _).bind fun _ =>
        (toMpq_below hn _).bind fun _ => .refl _)) (.of_eq rfl))

theorem lt_below (x y : Reg) : BelowW a r (lt L₁ x y) (lt L₂ x y) := by
  unfold lt
  refine (BelowW.refl _).bind fun _ => (BelowW.refl _).bind fun _ => (BelowW.refl _).bind fun i =>
    (BelowW.refl _).bind fun _ => BelowW.ite (BelowW.bind (call_below _ _ (cmp_below (env_below (A := A) hk hn i) hk _ _))
      fun _ => .refl _) (BelowW.bind (.of_eq rfl) fun _ =>
      BelowW.ite ((toMpq_below hn _).bind fun _ => (cmpQW_below hn hk _ _).bind fun _ => .refl _)
      (BelowW.bind (.of_eq rfl) fun _ =>
      BelowW.ite ((toMpq_below hn _).bind fun _ => (cmpQW_below hn hk _ _).bind fun _ => .refl _) (.refl _)))

theorem hash_below {γ : Type} (h : Dbl → γ) (x : Reg) : BelowW a r (hash L₁ h x) (hash L₂ h x) :=
  (toDouble_below hn hk x).bind fun _ => .refl _

theorem ltNum_below (x : Reg) (n : Num) : BelowW a r (ltNum L₁ x n) (ltNum L₂ x n) := by
  cases n <;> exact (cmpQW_below hn hk _ _).bind fun _ => .refl _

theorem gtNum_below (x : Reg) (n : Num) : BelowW a r (gtNum L₁ x n) (gtNum L₂ x n) := by
  cases n <;> exact (cmpQW_below hn hk _ _).bind fun _ => .refl _

omit hk in
theorem binaryNum_below (b : BinK) (x y : Reg) (n : Num) :
    BelowW a r (binaryNum L₁ b x y n) (binaryNum L₂ b x y n) :=
  (copyCtor_below hn _ _).bind fun _ => BelowW.unwinding (.of_eq (by cases n <;> cases b <;> rfl))

omit hk in
theorem numBinary_below (b : BinK) (x : Reg) (n : Num) (y : Reg) :
    BelowW a r (numBinary L₁ b x n y) (numBinary L₂ b x n y) := by
  cases b
  case add => exact (copyCtor_below hn _ _).bind fun _ => BelowW.unwinding (.of_eq (by cases n <;> rfl))
  case mul => exact (copyCtor_below hn _ _).bind fun _ => BelowW.unwinding (.of_eq (by cases n <;> rfl))
  case sub => exact BelowW.bind (.of_eq (by cases n <;> rfl)) fun _ => (binop_below hn _ _ _).unwinding
  case div => exact BelowW.bind (.of_eq (by cases n <;> rfl)) fun _ => (binop_below hn _ _ _).unwinding

omit hn hk in
theorem wnot_below {m m' : W Bool} (h : BelowW a r m m') : BelowW a r (wnot m) (wnot m') :=
  h.bind fun _ => .refl _

omit hn hk in
theorem eqNum_same (x : Reg) (n : Num) : eqNum L₁ x n = eqNum L₂ x n := by
  cases n <;> rfl

theorem rel_below (o : Rel) (x y : Reg) : BelowW a r (rel L₁ o x y) (rel L₂ o x y) := by
  cases o
  · exact eq_below hn _ _
  · exact wnot_below (eq_below hn _ _)
  · exact lt_below hn hk _ _
  · exact lt_below hn hk _ _
  · exact wnot_below (lt_below hn hk _ _)
  · exact wnot_below (lt_below hn hk _ _)

theorem relNum_below (o : Rel) (x : Reg) (n : Num) : BelowW a r (relNum L₁ o x n) (relNum L₂ o x n) := by
  cases o
  · exact .of_eq (eqNum_same _ _)
  · exact wnot_below (.of_eq (eqNum_same _ _))
  · exact ltNum_below hn hk _ _
  · exact gtNum_below hn hk _ _
  · exact wnot_below (gtNum_below hn hk _ _)
  · exact wnot_below (ltNum_below hn hk _ _)

theorem numRel_below (o : Rel) (n : Num) (x : Reg) : BelowW a r (numRel L₁ o n x) (numRel L₂ o n x) := by
  cases o
  · exact .of_eq (eqNum_same _ _)
  · exact wnot_below (.of_eq (eqNum_same _ _))
  · exact gtNum_below hn hk _ _
  · exact ltNum_below hn hk _ _
  · exact wnot_below (ltNum_below hn hk _ _)
  · exact wnot_below (gtNum_below hn hk _ _)

omit hn hk in
theorem ret_below {β : Type} {f : β → Val} {m m' : W β} (h : BelowW a r m m') :
    BelowW a r (ret f m) (ret f m') := h.bind fun _ => .refl _

theorem exec_below (c : Cmd) : BelowW a r (exec L₁ c) (exec L₂ c) := by
  cases c with
  | constructVec x f n d => exact ret_below (constructVec_below hn _ _ _ _)
  | constructFrom x f y => exact ret_below (constructFrom_below hn _ _ _)
  | copyCtor x y => exact ret_below (copyCtor_below hn _ _)
  | binop b x y => exact ret_below (binop_below hn _ _ _)
  | binopZ b x z => exact ret_below (.of_eq (by cases b <;> rfl))
  | binopQ b x q => exact ret_below (.of_eq (by cases b <;> rfl))
  | binopInt b x t z => exact ret_below (.of_eq (by cases b <;> rfl))
  | binary b x y z => exact ret_below (binary_below hn _ _ _ _)
  | binaryNum b x y n => exact ret_below (binaryNum_below hn _ _ _ _)
  | numBinary b x n y => exact ret_below (numBinary_below hn _ _ _ _)
  | neg x y => exact ret_below (neg_below hn _ _)
  | eq x y => exact ret_below (eq_below hn _ _)
  | toMpz x => exact ret_below (toMpz_below hn _)
  | toMpq x => exact ret_below (toMpq_below hn _)
  | num x => exact ret_below (num_below hn _)
  | lt x y => exact ret_below (lt_below hn hk _ _)
  | ltQ x q => exact ret_below ((cmpQW_below hn hk _ _).bind fun _ => .refl _)
  | gtQ x q => exact ret_below ((cmpQW_below hn hk _ _).bind fun _ => .refl _)
  | ltInt x t z => exact ret_below ((cmpQW_below hn hk _ _).bind fun _ => .refl _)
  | gtInt x t z => exact ret_below ((cmpQW_below hn hk _ _).bind fun _ => .refl _)
  | rel o x y => exact ret_below (rel_below hn hk _ _ _)
  | relNum o x n => exact ret_below (relNum_below hn hk _ _ _)
  | numRel o n x => exact ret_below (numRel_below hn hk _ _ _)
  | sgn x => exact ret_below (sgnW_below hn hk _)
  | floor x => exact ret_below (floorW_below hn hk _)
  | ceil x => exact ret_below (ceilW_below hn hk _)
  | floordiv x y => exact ret_below (floordiv_below hn hk _ _)
  | toDouble x => exact ret_below (toDouble_below hn hk _)
  | _ => exact .of_eq rfl

theorem execCatching_below (cs : List Cmd) : BelowW a r (execCatching L₁ cs) (execCatching L₂ cs) := by
  induction cs with
  | nil => exact .refl _
  | cons c cs ih => exact (exec_below hn hk c).attempt.bind fun _ => ih.bind fun _ => .refl _

theorem execAll_below (cs : List Cmd) : BelowW a r (execAll L₁ cs) (execAll L₂ cs) := by
  induction cs with
  | nil => exact .refl _
  | cons c cs ih => exact (exec_below hn hk c).bind fun _ => ih.bind fun _ => .refl _

theorem toString_below (T : TextLib) (x : Reg) (alg d arb : Bool) :
    BelowW a r (toString L₁ T x alg d arb) (toString L₂ T x alg d arb) :=
  (assert_below hn _).bind fun _ => (call1_below _ fun i _ =>
    getStrPretty_below (env_below (A := A) hk hn i) hk hn _ _ _ _ _ _).bind fun _ => .refl _

theorem print_below (T : TextLib) (x : Reg) : BelowW a r (print L₁ T x) (print L₂ T x) :=
  BelowW.bind (.of_eq rfl) fun _ => BelowW.ite (toString_below hn hk _ _ _ _ _) (toString_below hn hk _ _ _ _ _)

theorem execT_below (T : TextLib) {γ : Type} (h : Dbl → γ) (c : TCmd) (io : Streams) :
    BelowW a r (execT L₁ T h c io) (execT L₂ T h c io) := by
  cases c with
  | call c => exact (exec_below hn hk c).bind fun _ => .refl _
  | toString x alg d arb => exact (toString_below hn hk _ _ _ _ _).bind fun _ => .refl _
  | print x => exact (print_below hn hk _ _).bind fun _ => .refl _
  | hash x => exact (hash_below hn hk _ _).bind fun _ => .refl _
  | _ => exact .of_eq rfl

theorem execAllT_below (T : TextLib) {γ : Type} (h : Dbl → γ) (cs : List TCmd) :
    ∀ io : Streams, BelowW a r (execAllT L₁ T h cs io) (execAllT L₂ T h cs io) := by
  induction cs with
  | nil => exact fun _ => .refl _
  | cons c cs ih => exact fun io => (execT_below hn hk T h c io).bind fun _ => (ih _).bind fun _ => .refl _

end

end EAntic.Cxx
