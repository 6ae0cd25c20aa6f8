import Verif.Lemmas.CxxArith

/-! # The C++ elements: mixed operations, comparison, native integers -/

namespace EAntic.Cxx

variable {β γ : Type} {U : Prop} {T : String → World → Prop}
variable {L : Lib} {α : ℕ → ℝ} {I : ℕ → Field → Prop} {Λ : Set ℕ} {S : Reg → Slot} {w : World}

/-- divisors are nonzero -/
theorem op_ret {K : Nf} {E : Env K} {x : ℝ} {J : Field → Prop} (hE : FieldInv E x J)
    {v : Reg → ℝ} {s : Mem} (hs : EAntic.Rep K x J v s) (f : BinK) (a b c : Reg)
    (hc : f = .div → v c ≠ 0) : ∃ p, f.op E a b c s = .ok p := by
  cases f with
  | div =>
    show ∃ p, (if (s.heap c).elem.isZero K = true then (M.ub : M Unit)
      else M.write a ⟨E.N.div (s.heap a).elem (s.heap b).elem (s.heap c).elem,
        E.A.div (s.heap b).emb (s.heap c).emb s.fld.prec⟩) s = .ok p
    rw [if_neg]
    · exact ⟨_, rfl⟩
    · intro h
      exact hc rfl (by rw [← hs.val]; exact (isZero_iff hE.ok hE.root (hs.wf c)).1 h)
  | _ => exact ⟨_, rfl⟩

theorem opZ_ret {K : Nf} {E : Env K} {s : Mem} (f : BinK) (a b : Reg) {z : ℤ}
    (hc : f = .div → z ≠ 0) : ∃ p, f.opZ E a b z s = .ok p := by
  cases f with
  | div =>
    show ∃ p, (if z = 0 then (M.ub : M Unit)
      else M.write a ⟨E.N.divQ (s.heap a).elem (s.heap b).elem z,
        E.A.divFmpz (s.heap b).emb z s.fld.prec⟩) s = .ok p
    rw [if_neg (hc rfl)]
    exact ⟨_, rfl⟩
  | _ => exact ⟨_, rfl⟩

theorem opQ_ret {K : Nf} {E : Env K} {s : Mem} (f : BinK) (a b : Reg) {q : ℚ}
    (hc : f = .div → q ≠ 0) : ∃ p, f.opQ E a b q s = .ok p := by
  cases f with
  | div =>
    show ∃ p, (if q = 0 then (M.ub : M Unit)
      else M.write a ⟨E.N.divQ (s.heap a).elem (s.heap b).elem q,
        E.A.div (s.heap b).emb (E.A.setFmpq q s.fld.prec) s.fld.prec⟩) s = .ok p
    rw [if_neg (hc rfl)]
    exact ⟨_, rfl⟩
  | _ => exact ⟨_, rfl⟩

theorem op_spec {K : Nf} {E : Env K} {x : ℝ} {J : Field → Prop} (hE : FieldInv E x J) {v : Reg → ℝ}
    (f : BinK) (a b c : Reg) :
    Hoare (EAntic.Rep K x J v) (f.op E a b c) fun _ => EAntic.Rep K x J (upd v a (f.real (v b) (v c))) := by
  cases f
  · exact add_spec hE a b c
  · exact sub_spec hE a b c
  · exact mul_spec hE a b c
  · exact div_spec hE a b c

theorem opZ_spec {K : Nf} {E : Env K} {x : ℝ} {J : Field → Prop} (hE : FieldInv E x J) {v : Reg → ℝ}
    (f : BinK) (a b : Reg) (c : ℤ) :
    Hoare (EAntic.Rep K x J v) (f.opZ E a b c) fun _ => EAntic.Rep K x J (upd v a (f.real (v b) c)) := by
  cases f
  · exact addZ_spec hE a b c
  · exact subZ_spec hE a b c
  · exact mulZ_spec hE a b c
  · exact divZ_spec hE a b c

theorem opQ_spec {K : Nf} {E : Env K} {x : ℝ} {J : Field → Prop} (hE : FieldInv E x J) {v : Reg → ℝ}
    (f : BinK) (a b : Reg) (c : ℚ) :
    Hoare (EAntic.Rep K x J v) (f.opQ E a b c) fun _ => EAntic.Rep K x J (upd v a (f.real (v b) c)) := by
  cases f
  · exact addQ_spec hE a b c
  · exact subQ_spec hE a b c
  · exact mulQ_spec hE a b c
  · exact divQ_spec hE a b c

variable (hE : ∀ i, FieldInv (L.E i) (α i) (I i))
include hE

theorem binopZ_good (f : BinK) {x : Reg} {i : ℕ} {a : ℝ} {z : ℤ} (h : Rep L α I Λ S w)
    (hx : S x = .elem i a) (hz : f = .div → z ≠ 0) :
    Good U T (fun _ w' => Rep L α I Λ (Function.update S x (.elem i (f.real a z))) w')
      (binopZ L f x z w) := by
  refine (call1_good hE h hx (Q := fun _ a' => a' = f.real a z) fun v c hv s hs =>
    stores (opZ_spec (hE i) f _ _ z) hs (opZ_ret f _ _ hz) (by rw [hv])).mono ?_
  rintro _ w' ⟨_, rfl, hr, _⟩
  exact hr

theorem binopQ_good (f : BinK) {x : Reg} {i : ℕ} {a : ℝ} {q : ℚ} (h : Rep L α I Λ S w)
    (hx : S x = .elem i a) (hz : f = .div → q ≠ 0) :
    Good U T (fun _ w' => Rep L α I Λ (Function.update S x (.elem i (f.real a q))) w')
      (binopQ L f x q w) := by
  refine (call1_good hE h hx (Q := fun _ a' => a' = f.real a q) fun v c hv s hs =>
    stores (opQ_spec (hE i) f _ _ q) hs (opQ_ret f _ _ hz) (by rw [hv])).mono ?_
  rintro _ w' ⟨_, rfl, hr, _⟩
  exact hr

theorem binopSame_good (f : BinK) {x y : Reg} {i : ℕ} {a b : ℝ} (h : Rep L α I Λ S w)
    (hx : S x = .elem i a) (hy : S y = .elem i b) (hb : f = .div → b ≠ 0) :
    Good U T (fun _ w' => Rep L α I Λ (Function.update S x (.elem i (f.real a b))) w')
      (binopSame L f x y w) := by
  obtain ⟨cx, hcx, _⟩ := h.find hx
  obtain ⟨cy, hcy, _⟩ := h.find hy
  unfold binopSame
  refine Good.obj hcx (Good.obj hcy (Good.deref ?_))
  refine (store2_good hE h hx hy hcx hcy (z := f.real a b) fun v hv hv' s hs =>
    stores (op_spec (hE i) f _ _ _) hs (op_ret (hE i) hs f _ _ _ fun e => by rw [hv']; exact hb e)
      (by rw [hv, hv'])).mono ?_
  rintro _ w' ⟨hr, _⟩
  exact hr

omit hE in
theorem Good.parent {x : Reg} {i : ℕ} {a : ℝ} (h : Rep L α I Λ S w) (hx : S x = .elem i a)
    {f : ℕ → W γ} {Q : γ → World → Prop} (hf : Good U T Q (f i w)) :
    Good U T Q ((Cxx.parent x >>= f) w) := by
  obtain ⟨c, hc, _⟩ := h.find hx
  refine Good.bind (P := fun k w' => k = i ∧ w' = w) (Good.obj hc ⟨rfl, rfl⟩) ?_
  rintro _ _ ⟨h1, h2⟩
  rw [h1, h2]; exact hf

theorem coerce_good {x : Reg} (k : ℕ) {i : ℕ} {a : ℝ} (h : Rep L α I Λ S w) (hx : S x = .elem i a)
    (ht : S (.tmp 10) = .absent) (hT : k ≠ i → ¬ IsRat a → ∀ s w', Rep L α I Λ S w' → T s w') :
    Good U T (fun _ w' => (k = i ∨ IsRat a) ∧ Rep L α I Λ (Function.update S x (.elem k a)) w')
      (coerce L x k w) := by
  have hxt : x ≠ .tmp 10 := by rintro rfl; rw [hx] at ht; cases ht
  unfold coerce
  refine Good.parent h hx ?_
  split_ifs with hk
  · subst hk
    refine Good.pure ⟨.inl rfl, ?_⟩
    rwa [← hx, Function.update_eq_self]
  · refine Good.bind (isZero_good hE h hx) ?_
    rintro z w₁ ⟨hz, h₁, _⟩
    have hne : S x ≠ .absent := by rw [hx]; simp
    split_ifs with hz'
    · have ha := hz.1 hz'
      refine Good.bind (reparent_good hE k h₁ hne) ?_
      rintro _ w₂ ⟨h₂, _⟩
      obtain ⟨c, hc, _⟩ := h₂.find (x := x) (Function.update_self ..)
      refine Good.obj hc ?_
      refine (store1_good hE h₂ (x := x) (Function.update_self ..) hc (y := a) fun v _ s hs =>
        stores (zero_spec (hE k) _) hs ⟨_, rfl⟩ ha.symm).mono ?_
      rintro _ w' ⟨hr, -⟩
      rw [Function.update_idem] at hr
      exact ⟨.inr ⟨0, by simp [ha]⟩, hr⟩
    refine Good.bind (isInteger_good hE h₁ hx) ?_
    rintro z w₂ ⟨hz, h₂, _⟩
    split_ifs with hz'
    · have ha := hz.1 hz'
      refine Good.bind (getFmpz_good hE h₂ hx ha) ?_
      rintro n w₃ ⟨hn, h₃, _⟩
      refine Good.bind (reparent_good hE k h₃ hne) ?_
      rintro _ w₄ ⟨h₄, _⟩
      obtain ⟨c, hc, _⟩ := h₄.find (x := x) (Function.update_self ..)
      refine Good.obj hc ?_
      refine Good.bind (store1_good hE h₄ (x := x) (Function.update_self ..) hc (y := 0)
        fun v _ s hs => stores (zero_spec (hE k) _) hs ⟨_, rfl⟩ rfl) ?_
      rintro _ w₅ ⟨h₅, ho⟩
      refine (store1_good hE h₅ (x := x) (Function.update_self ..) (c := c) (by rw [ho, hc])
        (y := a) fun v _ s hs => stores (setZ_spec (hE k) _ n) hs ⟨_, rfl⟩ hn.symm).mono ?_
      rintro _ w' ⟨hr, -⟩
      rw [Function.update_idem, Function.update_idem] at hr
      obtain ⟨m, hm⟩ := ha
      exact ⟨.inr ⟨m, by rw [hm]; simp⟩, hr⟩
    refine Good.bind (isRational_good hE h₂ hx) ?_
    rintro z w₃ ⟨hz, h₃, _⟩
    split_ifs with hz'
    · have ha := hz.1 hz'
      refine Good.bind (constructFrom_good hE k h₃ ht hx fun _ h => absurd ha h) ?_
      rintro _ w₄ ⟨_, h₄⟩
      have e1 : Function.update S (.tmp 10) (.elem k a) x = .elem i a := by
        rw [Function.update_of_ne hxt, hx]
      refine Good.bind (moveAssign_good h₄ (x := x) (y := .tmp 10) (by rw [e1]; simp)
        (by rw [Function.update_self]; simp)) ?_
      rintro _ w₅ h₅
      rcases h₅ with ⟨_, h₅⟩ | ⟨h, _⟩
      · refine (destroy_good h₅ (x := .tmp 10) (by rw [Function.update_self, e1]; simp)).mono ?_
        intro _ w' hr
        refine ⟨.inr ha, ?_⟩
        convert hr using 1
        rw [Function.update_idem, Function.update_self, Function.update_comm hxt,
          Function.update_idem, ← Function.update_comm hxt]
        conv_rhs => rw [Function.update_comm hxt, ← ht, Function.update_eq_self]
      · rw [e1] at h; cases h
    · exact hT hk (fun hb => hz' (hz.2 hb)) _ _ h₃

theorem binop_good (f : BinK) {x y : Reg} {i j : ℕ} {a b : ℝ} (h : Rep L α I Λ S w)
    (hx : S x = .elem i a) (hy : S y = .elem j b) (hb : f = .div → b ≠ 0)
    (ht : S (.tmp 10) = .absent) (hT : ¬ Supported L.strict i a j b → ∀ s w', Rep L α I Λ S w' → T s w') :
    Good U T (fun _ w' => Supported L.strict i a j b ∧ ∃ k, ResultField i j b k ∧
      Rep L α I Λ (Function.update S x (.elem k (f.real a b))) w') (binop L f x y w) := by
  unfold binop
  refine Good.parent h hx ?_
  refine Good.parent h hy ?_
  split_ifs with hij hs
  · subst hij
    exact (binopSame_good hE f h hx hy hb).mono fun _ w' hr => ⟨.inl rfl, i, .inl ⟨rfl, rfl⟩, hr⟩
  · refine hT ?_ _ _ h
    rintro (h | ⟨_, h⟩)
    · exact hij h
    · rcases h hs.2.2 with h | h
      · exact hs.1 h
      · exact hs.2.1 h
  · have hst : L.strict = true → i = 0 ∨ j = 0 := by
      intro h
      by_contra hc
      push Not at hc
      exact hs ⟨hc.1, hc.2, h⟩
    refine Good.bind (isInteger_good hE h hy) ?_
    rintro z w₁ ⟨hz, h₁, _⟩
    split_ifs with hz'
    · have ha := hz.1 hz'
      have hrat : IsRat b := by obtain ⟨m, hm⟩ := ha; exact ⟨m, by rw [hm]; simp⟩
      refine Good.bind (getFmpz_good hE h₁ hy ha) ?_
      rintro n w₂ ⟨rfl, h₂, _⟩
      exact (binopZ_good hE f h₂ hx fun e => by exact_mod_cast hb e).mono fun _ w' hr =>
        ⟨.inr ⟨.inr hrat, hst⟩, i, .inr (.inl ⟨hij, hrat, rfl⟩), hr⟩
    refine Good.bind (isRational_good hE h₁ hy) ?_
    rintro z w₂ ⟨hz, h₂, _⟩
    split_ifs with hz'
    · have hrat := hz.1 hz'
      refine Good.bind (getFmpq_good hE h₂ hy hrat) ?_
      rintro n w₃ ⟨rfl, h₃, _⟩
      exact (binopQ_good hE f h₃ hx fun e => by exact_mod_cast hb e).mono fun _ w' hr =>
        ⟨.inr ⟨.inr hrat, hst⟩, i, .inr (.inl ⟨hij, hrat, rfl⟩), hr⟩
    have hrat : ¬ IsRat b := fun h => hz' (hz.2 h)
    refine Good.bind (coerce_good hE j h₂ hx ht fun hne hr => hT ?_) ?_
    · rintro (h | ⟨h | h, _⟩)
      · exact hij h
      · exact hr h
      · exact hrat h
    · rintro _ w₃ ⟨ha, h₃⟩
      have ha : IsRat a := ha.resolve_left (Ne.symm hij)
      have hyx : y ≠ x := by
        rintro rfl
        rw [hx] at hy; injection hy with h; exact hij h
      refine (binopSame_good hE f h₃ (x := x) (y := y) (Function.update_self ..)
        (by rw [Function.update_of_ne hyx, hy]) hb).mono fun _ w' hr =>
        ⟨.inr ⟨.inl ha, hst⟩, j, .inr (.inr ⟨hij, hrat, rfl⟩), ?_⟩
      rwa [Function.update_idem] at hr

omit hE in
/-- stack unwinding releases the storage of a local object -/
theorem unwinding_good {x : Reg} {m : W β} {Q : β → World → Prop} {sl : Slot} (hsl : sl ≠ .absent)
    (hx : S x = .absent)
    (h : Good U (fun s w' => Rep L α I Λ (Function.update S x sl) w' ∧
      ∀ w'', Rep L α I Λ S w'' → T s w'') Q (m w)) : Good U T Q (unwinding x m w) := by
  unfold unwinding
  cases hm : m w with
  | throw s w' =>
    rw [hm] at h
    have := destroy_good (U := U) (T := fun _ _ => False) h.1 (x := x)
      (by rw [Function.update_self]; exact hsl)
    show Good U T Q (match destroy x w' with
      | .ok (_, w'') => .throw s w''
      | .throw _ _ => .abort
      | .running => .running
      | .abort => .abort
      | .ub => .ub)
    cases hd : destroy x w' with
    | ok p =>
      rw [hd] at this
      refine h.2 _ ?_
      have : Rep L α I Λ (Function.update (Function.update S x sl) x .absent) p.2 := this
      rwa [Function.update_idem, ← hx, Function.update_eq_self] at this
    | throw _ _ => rw [hd] at this; exact this.elim
    | running => rw [hd] at this; exact this
    | abort => rw [hd] at this; exact this
    | ub => rw [hd] at this; exact this
  | ok p => rw [hm] at h; exact h
  | running => rw [hm] at h; exact h
  | abort => rw [hm] at h; exact h
  | ub => rw [hm] at h; exact h

theorem binary_good (f : BinK) {r x y : Reg} {i j : ℕ} {a b : ℝ} (h : Rep L α I Λ S w)
    (hr : S r = .absent) (hrt : r ≠ .tmp 10)
    (hx : S x = .elem i a) (hy : S y = .elem j b) (hb : f = .div → b ≠ 0)
    (ht : S (.tmp 10) = .absent) (hT : ¬ Supported L.strict i a j b → ∀ s w', Rep L α I Λ S w' → T s w') :
    Good U T (fun _ w' => Supported L.strict i a j b ∧ ∃ k, ResultField i j b k ∧
      Rep L α I Λ (Function.update S r (.elem k (f.real a b))) w') (binary L f r x y w) := by
  unfold binary
  refine Good.bind (copyCtor_good hE h hr hx) ?_
  intro _ w₁ h₁
  have hyr : y ≠ r := by rintro rfl; rw [hr] at hy; cases hy
  refine unwinding_good (L := L) (α := α) (I := I) (Λ := Λ) (sl := .elem i a) (by simp) hr ?_
  refine (binop_good hE f h₁ (x := r) (y := y) (Function.update_self ..)
    (by rw [Function.update_of_ne hyr, hy]) hb (by rw [Function.update_of_ne hrt.symm, ht])
    fun hn s w' hw => ⟨hw, fun w'' => hT hn s w''⟩).mono ?_
  rintro _ w' ⟨hs, k, hk, hrep⟩
  rw [Function.update_idem] at hrep
  exact ⟨hs, k, hk, hrep⟩

theorem neg_good {r x : Reg} {i : ℕ} {a : ℝ} (h : Rep L α I Λ S w) (hr : S r = .absent)
    (hx : S x = .elem i a) :
    Good U T (fun _ w' => Rep L α I Λ (Function.update S r (.elem i (-a))) w') (neg L r x w) := by
  unfold neg
  refine Good.bind (copyCtor_good hE h hr hx) ?_
  intro _ w₁ h₁
  refine (call1_good hE h₁ (x := r) (Function.update_self ..) (Q := fun _ a' => a' = -a)
    fun v c hv s hs => stores (neg_spec (hE i) _ _) hs ⟨_, rfl⟩ (by rw [hv])).mono ?_
  rintro _ w' ⟨_, rfl, hrep, _⟩
  rwa [Function.update_idem] at hrep

theorem pow_good {r x : Reg} {i : ℕ} {a : ℝ} {e : ℤ} (h : Rep L α I Λ S w) (hr : S r = .absent)
    (hx : S x = .elem i a) (he : e < 0 → a ≠ 0 ∧ e ≠ -2 ^ 31) :
    Good U T (fun _ w' => Rep L α I Λ (Function.update S r (.elem i (a ^ e))) w') (pow L r x e w) := by
  unfold pow
  refine Good.parent h hx ?_
  refine Good.bind (construct_good hE i h hr) ?_
  intro _ w₁ h₁
  have hxr : x ≠ r := by rintro rfl; rw [hr] at hx; cases hx
  have hx₁ : Function.update S r (.elem i 0) x = .elem i a := by rw [Function.update_of_ne hxr, hx]
  obtain ⟨c, hc, _⟩ := h₁.find (x := r) (Function.update_self ..)
  obtain ⟨cx, hcx, _⟩ := h₁.find hx₁
  refine Good.obj hc (Good.obj hcx ?_)
  split_ifs with hneg hmin
  · refine Good.bind (store2_good hE h₁ (x := r) (Function.update_self ..) hx₁ hc hcx (z := a⁻¹)
      fun v hv hv' s hs => stores (inv_spec (hE i) _ _) hs ?_ (by rw [hv'])) ?_
    · show ∃ p, (if (s.heap (.user cx)).elem.isZero (L.K i) = true then (M.ub : M Unit)
        else M.write (.user c) ⟨(L.E i).N.inv (s.heap (.user c)).elem (s.heap (.user cx)).elem,
          (L.E i).A.inv (s.heap (.user cx)).emb s.fld.prec⟩) s = .ok p
      rw [if_neg]
      · exact ⟨_, rfl⟩
      · intro h
        refine (he hneg).1 ?_
        rw [← hv', ← hs.val]
        exact (isZero_iff (hE i).ok (hE i).root (hs.wf _)).1 h
    · exact absurd hmin (he hneg).2
  · refine Good.bind (store2_good hE h₁ (x := r) (Function.update_self ..) hx₁ hc hcx (z := a⁻¹)
      fun v hv hv' s hs => stores (inv_spec (hE i) _ _) hs ?_ (by rw [hv'])) ?_
    · show ∃ p, (if (s.heap (.user cx)).elem.isZero (L.K i) = true then (M.ub : M Unit)
        else M.write (.user c) ⟨(L.E i).N.inv (s.heap (.user c)).elem (s.heap (.user cx)).elem,
          (L.E i).A.inv (s.heap (.user cx)).emb s.fld.prec⟩) s = .ok p
      rw [if_neg]
      · exact ⟨_, rfl⟩
      · intro h
        refine (he hneg).1 ?_
        rw [← hv', ← hs.val]
        exact (isZero_iff (hE i).ok (hE i).root (hs.wf _)).1 h
    · rintro _ w₂ ⟨h₂, ho⟩
      refine (store1_good hE h₂ (x := r) (Function.update_self ..) (c := c) (by rw [ho, hc])
        (y := a ^ e) fun v hv s hs => stores (pow_spec (hE i) _ _ _) hs ⟨_, rfl⟩ ?_).mono ?_
      · rw [hv]
        conv_rhs => rw [show e = -((-e).toNat : ℤ) by omega]
        rw [zpow_neg, zpow_natCast, inv_pow]
      · rintro _ w' ⟨hrep, _⟩
        rwa [Function.update_idem, Function.update_idem] at hrep
  · refine (store2_good hE h₁ (x := r) (Function.update_self ..) hx₁ hc hcx (z := a ^ e)
      fun v hv hv' s hs => stores (pow_spec (hE i) _ _ _) hs ⟨_, rfl⟩ ?_).mono ?_
    · rw [hv']
      conv_rhs => rw [show e = (e.toNat : ℤ) by omega]
      rw [zpow_natCast]
    · rintro _ w' ⟨hrep, _⟩
      rwa [Function.update_idem] at hrep

/-! ## Comparison -/

theorem eqQ_good {x : Reg} {i : ℕ} {a : ℝ} (h : Rep L α I Λ S w) (hx : S x = .elem i a) (q : ℚ) :
    Good U T (fun b w' => (b = true ↔ a = q) ∧ Rep L α I Λ S w') (eqQ L x q w) := by
  unfold eqQ
  refine Good.bind (isRational_good hE h hx) ?_
  rintro b w₁ ⟨hb, h₁, _⟩
  split_ifs with hb'
  · refine Good.pure ⟨?_, h₁⟩
    simp only [Bool.false_eq_true, false_iff]
    intro he
    simp only [Bool.not_eq_true', ← Bool.not_eq_true] at hb'
    exact hb' (hb.2 ⟨q, he⟩)
  · exact (equalQ_good hE h₁ hx q).mono fun _ _ h => ⟨h.1, h.2.1⟩

theorem eqZ_good {x : Reg} {i : ℕ} {a : ℝ} (h : Rep L α I Λ S w) (hx : S x = .elem i a) (z : ℤ)
    (first : Bool) :
    Good U T (fun b w' => (b = true ↔ a = z) ∧ Rep L α I Λ S w') (eqZ L x z first w) := by
  have key : ∀ {w}, Rep L α I Λ S w → Good U T (fun b w' => (b = true ↔ a = z) ∧ Rep L α I Λ S w')
      (call1 L x (fun i r => (L.E i).equalQ r z) w) := fun h =>
    (equalQ_good hE h hx z).mono fun _ _ h => ⟨by rw [h.1]; simp, h.2.1⟩
  unfold eqZ
  refine Good.bind (isInteger_good hE h hx) ?_
  rintro b w₁ ⟨hb, h₁, _⟩
  split_ifs with hb'
  · refine Good.pure ⟨?_, h₁⟩
    simp only [Bool.false_eq_true, false_iff]
    intro he
    simp only [Bool.and_eq_true, Bool.not_eq_true', ← Bool.not_eq_true] at hb'
    exact hb'.2 (hb.2 ⟨z, he⟩)
  · exact key h₁

theorem eq_good {x y : Reg} {i j : ℕ} {a b : ℝ} (h : Rep L α I Λ S w) (hx : S x = .elem i a)
    (hy : S y = .elem j b) (hT : ¬ (i = j ∨ IsRat a ∨ IsRat b) → ∀ s w', Rep L α I Λ S w' → T s w') :
    Good U T (fun r w' => (i = j ∨ IsRat a ∨ IsRat b) ∧ (r = true ↔ a = b) ∧ Rep L α I Λ S w')
      (eq L x y w) := by
  obtain ⟨cx, hcx, _⟩ := h.find hx
  obtain ⟨cy, hcy, _⟩ := h.find hy
  unfold eq
  refine Good.obj hcx (Good.obj hcy (Good.deref (Good.deref ?_)))
  split_ifs with hij
  · subst hij
    refine (query2_good hE h hx hy hcx hcy (Q := fun r => r = true ↔ a = b)
      fun v hv hv' s hs => ?_).mono fun _ _ h => ⟨.inl rfl, h.1, h.2.1⟩
    show EAntic.Rep _ _ _ _ s ∧ ((s.heap _).elem.equal _ (s.heap _).elem = true ↔ _)
    refine ⟨hs, ?_⟩
    rw [equal_iff (hE i).ok (hE i).root (hs.wf _) (hs.wf _), hs.val, hs.val, hv, hv']
  · refine Good.bind (isRational_good hE h hx) ?_
    rintro r w₁ ⟨hr, h₁, _⟩
    split_ifs with hr'
    · refine Good.bind (isRational_good hE h₁ hy) ?_
      rintro r₂ w₂ ⟨hr₂, h₂, _⟩
      split_ifs with hr₂'
      · refine Good.pure ⟨.inr (.inl (hr.1 hr')), ?_, h₂⟩
        simp only [Bool.false_eq_true, false_iff]
        rintro rfl
        simp only [Bool.not_eq_true', ← Bool.not_eq_true] at hr₂'
        exact hr₂' (hr₂.2 (hr.1 hr'))
      · have hrb : IsRat b := hr₂.1 (by simpa using hr₂')
        refine Good.bind (toMpq_good hE h₂ hx (hr.1 hr')) ?_
        rintro p w₃ ⟨hp, h₃, _⟩
        refine Good.bind (toMpq_good hE h₃ hy hrb) ?_
        rintro q w₄ ⟨hq, h₄, _⟩
        refine Good.pure ⟨.inr (.inl (hr.1 hr')), ?_, h₄⟩
        rw [hp, hq, beq_iff_eq]
        exact_mod_cast Iff.rfl
    · refine Good.bind (isRational_good hE h₁ hy) ?_
      rintro r₂ w₂ ⟨hr₂, h₂, _⟩
      have hra : ¬ IsRat a := fun h => hr' (hr.2 h)
      split_ifs with hr₂'
      · refine Good.pure ⟨.inr (.inr (hr₂.1 hr₂')), ?_, h₂⟩
        simp only [Bool.false_eq_true, false_iff]
        rintro rfl
        exact hra (hr₂.1 hr₂')
      · refine hT ?_ _ _ h₂
        rintro (h | h | h)
        · exact hij h
        · exact hra h
        · exact hr₂' (hr₂.2 h)

omit hE in
theorem sgnR_neg_iff (x : ℝ) : sgnR x < 0 ↔ x < 0 := by
  unfold sgnR; split_ifs <;> simp <;> linarith
omit hE in
theorem sgnR_pos_iff (x : ℝ) : 0 < sgnR x ↔ 0 < x := by
  unfold sgnR; split_ifs <;> simp <;> linarith
omit hE in
theorem sgnR_sign (x : ℝ) : (sgnR x).sign = sgnR x := by
  unfold sgnR; split_ifs <;> simp
omit hE in
theorem sgnR_eq_one (x : ℝ) : sgnR x = 1 ↔ 0 < x := by
  unfold sgnR; split_ifs <;> simp <;> linarith
omit hE in
theorem sgnR_eq_neg_one (x : ℝ) : sgnR x = -1 ↔ x < 0 := by
  unfold sgnR; split_ifs <;> simp <;> linarith

theorem cmpQ_good (hU : U) {x : Reg} {i : ℕ} {a : ℝ} (h : Rep L α I Λ S w) (hx : S x = .elem i a)
    (q : ℚ) :
    Good U T (fun z w' => z = sgnR (a - q) ∧ Rep L α I Λ S w' ∧ w'.obj = w.obj) (cmpQ L x q w) :=
  query_good hE h hx (Q := fun z => z = sgnR (a - q)) fun v c hv s hs =>
    GoodM.of_hoare ((cmpQ_spec (hE i) (by simp) q L.ndebug).conseq (fun _ h => h)
      fun _ _ h => ⟨h.1, by rw [h.2, hv]⟩) hs (.inl hU)

theorem lt_good (hU : U) {x y : Reg} {i j : ℕ} {a b : ℝ} (h : Rep L α I Λ S w) (hx : S x = .elem i a)
    (hy : S y = .elem j b) (hT : ¬ (i = j ∨ IsRat a ∨ IsRat b) → ∀ s w', Rep L α I Λ S w' → T s w') :
    Good U T (fun r w' => (i = j ∨ IsRat a ∨ IsRat b) ∧ (r = true ↔ a < b) ∧ Rep L α I Λ S w')
      (lt L x y w) := by
  obtain ⟨cx, hcx, _⟩ := h.find hx
  obtain ⟨cy, hcy, _⟩ := h.find hy
  unfold lt
  refine Good.obj hcx (Good.obj hcy (Good.deref (Good.deref ?_)))
  split_ifs with hij
  · subst hij
    refine Good.bind (query2_good hE h hx hy hcx hcy (Q := fun z => z = sgnR (a - b))
      fun v hv hv' s hs => GoodM.of_hoare ((cmp_spec (hE i) (by simp) (by simp)).conseq
        (fun _ h => h) fun _ _ h => ⟨h.1, by rw [h.2, hv, hv']⟩) hs (.inl hU)) ?_
    rintro z w₁ ⟨rfl, h₁, _⟩
    refine Good.pure ⟨.inl rfl, ?_, h₁⟩
    rw [decide_eq_true_eq, sgnR_neg_iff, sub_neg]
  · refine Good.bind (isRational_good hE h hx) ?_
    rintro r w₁ ⟨hr, h₁, _⟩
    split_ifs with hr'
    · refine Good.bind (toMpq_good hE h₁ hx (hr.1 hr')) ?_
      rintro q w₂ ⟨hq, h₂, _⟩
      refine Good.bind (cmpQ_good hE hU h₂ hy q) ?_
      rintro z w₃ ⟨rfl, h₃, _⟩
      refine Good.pure ⟨.inr (.inl (hr.1 hr')), ?_, h₃⟩
      rw [beq_iff_eq, sgnR_sign, sgnR_eq_one, sub_pos, hq]
    · have hra : ¬ IsRat a := fun h => hr' (hr.2 h)
      refine Good.bind (isRational_good hE h₁ hy) ?_
      rintro r₂ w₂ ⟨hr₂, h₂, _⟩
      split_ifs with hr₂'
      · refine Good.bind (toMpq_good hE h₂ hy (hr₂.1 hr₂')) ?_
        rintro q w₃ ⟨hq, h₃, _⟩
        refine Good.bind (cmpQ_good hE hU h₃ hx q) ?_
        rintro z w₄ ⟨rfl, h₄, _⟩
        refine Good.pure ⟨.inr (.inr (hr₂.1 hr₂')), ?_, h₄⟩
        rw [beq_iff_eq, sgnR_sign, sgnR_eq_neg_one, sub_neg, hq]
      · refine hT ?_ _ _ h₂
        rintro (h | h | h)
        · exact hij h
        · exact hra h
        · exact hr₂' (hr₂.2 h)

theorem sgn_good (hU : U) {x : Reg} {i : ℕ} {a : ℝ} (h : Rep L α I Λ S w) (hx : S x = .elem i a) :
    Good U T (fun z w' => z = sgnR a ∧ Rep L α I Λ S w' ∧ w'.obj = w.obj) (sgn L x w) :=
  query_good hE h hx (Q := fun z => z = sgnR a) fun v c hv s hs =>
    GoodM.of_hoare ((sgn_spec (hE i) _).conseq (fun _ h => h)
      fun _ _ h => ⟨h.1, by rw [h.2, hv]⟩) hs (.inl hU)

theorem floor_good (hU : U) {x : Reg} {i : ℕ} {a : ℝ} (h : Rep L α I Λ S w) (hx : S x = .elem i a) :
    Good U T (fun z w' => (a ≠ 0 ∨ (L.K i).degree ≤ 2 → z = ⌊a⌋) ∧ Rep L α I Λ S w' ∧ w'.obj = w.obj) (floor L x w) :=
  query_good hE h hx (Q := fun z => a ≠ 0 ∨ (L.K i).degree ≤ 2 → z = ⌊a⌋) fun v c hv s hs =>
    GoodM.of_hoare ((round_rep (hE i) .floor _).conseq (fun _ h => h)
      fun _ _ h => ⟨h.1, by rw [← hv]; exact h.2⟩) hs (.inl hU)

theorem ceil_good (hU : U) {x : Reg} {i : ℕ} {a : ℝ} (h : Rep L α I Λ S w) (hx : S x = .elem i a) :
    Good U T (fun z w' => (a ≠ 0 ∨ (L.K i).degree ≤ 2 → z = ⌈a⌉) ∧ Rep L α I Λ S w' ∧ w'.obj = w.obj) (ceil L x w) :=
  query_good hE h hx (Q := fun z => a ≠ 0 ∨ (L.K i).degree ≤ 2 → z = ⌈a⌉) fun v c hv s hs =>
    GoodM.of_hoare ((round_rep (hE i) .ceil _).conseq (fun _ h => h)
      fun _ _ h => ⟨h.1, by rw [← hv]; exact h.2⟩) hs (.inl hU)

/-- what is known about the nearest double of `a`; it is the same for equal numbers -/
def NearDouble (a : ℝ) (d : Dbl) : Prop :=
  (∀ q : ℚ, a = q → d = arfGetD .near (arfRound .near 53 q)) ∧
  (Irrational a → |a| ≤ dblMax → RoundsTo .near a d) ∧
  (Irrational a → (dblMax : ℝ) < a → d = .inf) ∧
  (Irrational a → a < -dblMax → d = .ninf) ∧
  ((2 : ℝ) ^ (-1022 : ℤ) ≤ |a| → |a| ≤ dblMax → RoundsTo .near a d)

omit hE in
theorem NearDouble.castsTo {a : ℝ} {d : Dbl} (h : NearDouble a d) : CastsTo a d := by
  obtain ⟨h1, h2, h3, h4, h5⟩ := h
  refine ⟨h5, fun q hq => ⟨_, arfRound_near53 q, ?_⟩, fun hi => ?_⟩
  · rw [h1 q hq]; exact arfGetD_spec .near _
  · have hi : Irrational a := by rintro ⟨q, hq⟩; exact hi q hq.symm
    exact ⟨h2 hi, h3 hi, h4 hi⟩

theorem toDouble_good (hU : U) {x : Reg} {i : ℕ} {a : ℝ} (h : Rep L α I Λ S w)
    (hx : S x = .elem i a) :
    Good U T (fun d w' => NearDouble a d ∧ Rep L α I Λ S w' ∧ w'.obj = w.obj) (toDouble L x w) :=
  query_good hE h hx (Q := NearDouble a) fun v c hv s hs => by
    have h1 := getD_spec (hE i) (v := v) (a := .user c) (by simp) .near (nd := L.ndebug)
    have h2 := getD_rounds (hE i) (v := v) (a := .user c) (by simp) .near (nd := L.ndebug)
    refine GoodM.of_hoare (Q := fun d s' => EAntic.Rep _ _ _ v s' ∧ NearDouble a d)
      (fun s d s' hs hr => ?_) hs (.inl hU)
    have k1 := h1 s d s' hs hr
    have k2 := h2 s d s' hs hr
    rw [hv] at k1 k2
    exact ⟨k1.1, k1.2.1, k1.2.2.1, k1.2.2.2.1, k1.2.2.2.2, k2.2⟩

theorem fdivRaw_good (hU : U) {x y : Reg} {i : ℕ} {a b : ℝ} (h : Rep L α I Λ S w)
    (hx : S x = .elem i a) (hy : S y = .elem i b) :
    Good U T (fun z w' => z = ⌊a / b⌋ ∧ Rep L α I Λ S w') (fdivRaw L x y w) := by
  obtain ⟨cx, hcx, _⟩ := h.find hx
  obtain ⟨cy, hcy, _⟩ := h.find hy
  unfold fdivRaw
  refine Good.obj hcx (Good.obj hcy (Good.deref ?_))
  exact (query2_good hE h hx hy hcx hcy (Q := fun z => z = ⌊a / b⌋) fun v hv hv' s hs =>
    GoodM.of_hoare ((fdiv_spec (hE i) (by simp) (by simp)).conseq (fun _ h => h)
      fun _ _ h => ⟨h.1, by rw [h.2, hv, hv']⟩) hs (.inl hU)).mono fun _ _ h => ⟨h.1, h.2.1⟩

theorem floordiv_good (hU : U) {x y : Reg} {i j : ℕ} {a b : ℝ} (h : Rep L α I Λ S w)
    (hx : S x = .elem i a) (hy : S y = .elem j b) (hb : b ≠ 0) (hij : i = j ∨ IsRat a ∨ IsRat b)
    (ht : S (.tmp 10) = .absent) (ht' : S (.tmp 11) = .absent)
    (hT : IsRat b → ¬ Supported L.strict i a j b → ∀ s w', Rep L α I Λ S w' → T s w') :
    Good U T (fun z w' => ((i = j ∨ a ≠ 0 ∨ ¬ IsRat b ∨ (L.K i).degree ≤ 2 → z = ⌊a / b⌋) ∧
        (IsRat b → Supported L.strict i a j b)) ∧ Rep L α I Λ S w')
      (floordiv L x y w) := by
  unfold floordiv
  refine Good.parent h hx ?_
  refine Good.parent h hy ?_
  have back : ∀ k z, Function.update (Function.update S (.tmp 11) (.elem k z)) (.tmp 11) .absent = S :=
    fun k z => by rw [Function.update_idem, ← ht', Function.update_eq_self]
  split_ifs with hne
  · refine Good.bind (isRational_good hE h hy) ?_
    rintro r w₁ ⟨hr, h₁, _⟩
    split_ifs with hr'
    · refine Good.bind (binary_good hE .div h₁ ht' (by simp) hx hy (fun _ => hb) ht
        (hT (hr.1 hr'))) ?_
      rintro _ w₂ ⟨hsup, k, hk, h₂⟩
      refine Good.bind (floor_good hE hU h₂ (x := .tmp 11) (Function.update_self ..)) ?_
      rintro z w₃ ⟨hz, h₃, _⟩
      refine Good.bind (destroy_good h₃ (x := .tmp 11) (by rw [Function.update_self]; simp)) ?_
      intro _ w₄ h₄
      rw [back] at h₄
      refine Good.pure ⟨⟨fun h => ?_, fun _ => hsup⟩, h₄⟩
      rcases h.resolve_left hne with h | h | h
      · exact hz (.inl (div_ne_zero h hb))
      · exact absurd (hr.1 hr') h
      · have : k = i := by
          rcases hk with hk | hk | hk
          · exact hk.2
          · exact hk.2.2
          · exact absurd (hr.1 hr') hk.2.1
        exact hz (.inr (this ▸ h))
    · refine Good.bind (isRational_good hE h₁ hx) ?_
      rintro r₂ w₂ ⟨hr₂, h₂, _⟩
      have hrb : ¬ IsRat b := fun h => hr' (hr.2 h)
      split_ifs with hr₂'
      · refine Good.bind (toMpq_good hE h₂ hx (hr₂.1 hr₂')) ?_
        rintro q w₃ ⟨hq, h₃, _⟩
        refine Good.bind (constructQ_good hE j q h₃ ht') ?_
        intro _ w₄ h₄
        have hyt : y ≠ .tmp 11 := by rintro rfl; rw [ht'] at hy; cases hy
        refine Good.bind (fdivRaw_good hE hU h₄ (x := .tmp 11) (y := y) (Function.update_self ..)
          (by rw [Function.update_of_ne hyt, hy])) ?_
        rintro z w₅ ⟨hz, h₅⟩
        refine Good.bind (destroy_good h₅ (x := .tmp 11) (by rw [Function.update_self]; simp)) ?_
        intro _ w₆ h₆
        rw [back] at h₆
        exact Good.pure ⟨⟨fun _ => by rw [hz, hq], fun h => absurd h hrb⟩, h₆⟩
      · exact absurd hij (by
          rintro (h | h | h)
          · exact hne h
          · exact hr₂' (hr₂.2 h)
          · exact hrb h)
  · push Not at hne
    subst hne
    exact (fdivRaw_good hE hU h hx hy).mono fun _ _ h => ⟨⟨fun _ => h.1, fun _ => .inl rfl⟩, h.2⟩

omit hE

/-! ## Native integers -/

theorem castS_of_in {n : ℕ} {z : ℤ} (hn : 0 < n) (h : InS n z) : castS n z = z := by
  unfold castS
  have e : (2 : ℤ) ^ n = 2 * 2 ^ (n - 1) := by
    conv_lhs => rw [show n = n - 1 + 1 by omega]
    rw [pow_succ]; ring
  rw [Int.emod_eq_of_lt]
  · ring
  · have := h.1; linarith
  · have := h.2; rw [e]; linarith

theorem castU_of_in {n : ℕ} {z : ℤ} (h : InU n z) : castU n z = z :=
  Int.emod_eq_of_lt h.1 h.2

theorem InS.mono {n m : ℕ} (h : n ≤ m) {z : ℤ} (hz : InS n z) : InS m z := by
  have : (2 : ℤ) ^ (n - 1) ≤ 2 ^ (m - 1) := pow_le_pow_right₀ (by norm_num) (by omega)
  exact ⟨by have := hz.1; linarith, by have := hz.2; linarith⟩

theorem InU.mono {n m : ℕ} (h : n ≤ m) {z : ℤ} (hz : InU n z) : InU m z := by
  have : (2 : ℤ) ^ n ≤ 2 ^ m := pow_le_pow_right₀ (by norm_num) h
  exact ⟨hz.1, by have := hz.2; linarith⟩

/-- the C functions see the value of a native integer -/
theorem native_eq {b : Widths} (hb : b.Ok) {t : IntTy} {z : ℤ} (h : t.Has b z) : native b t z = z := by
  have h1 := hb.short_int
  have h2 := hb.int_long
  have h3 := hb.long_slong
  have h0 := hb.pos
  cases t with
  | short =>
    have h : InS b.short z := h
    show castS _ (castS _ z) = z
    rw [castS_of_in (by omega) (h.mono (by omega)), castS_of_in (by omega) (h.mono (by omega))]
  | int =>
    have h : InS b.int z := h
    show castS _ (castS _ z) = z
    rw [castS_of_in (by omega) (h.mono (by omega)), castS_of_in (by omega) (h.mono (by omega))]
  | long =>
    have h : InS b.long z := h
    show castS _ (castS _ z) = z
    rw [castS_of_in (by omega) (h.mono (by omega)), castS_of_in (by omega) (h.mono (by omega))]
  | ushort =>
    have h : InU b.short z := h
    show castU _ (castU _ z) = z
    rw [castU_of_in (h.mono (by omega)), castU_of_in (h.mono (by omega))]
  | uint =>
    have h : InU b.int z := h
    show castU _ (castU _ z) = z
    rw [castU_of_in (h.mono (by omega)), castU_of_in (h.mono (by omega))]
  | ulong =>
    have h : InU b.long z := h
    show castU _ (castU _ z) = z
    rw [castU_of_in (h.mono (by omega)), castU_of_in (h.mono (by omega))]
  | llong =>
    show (if InS b.slong z then castS b.slong z else z) = z
    split_ifs with hz
    · exact castS_of_in (by omega) hz
    · rfl
  | ullong =>
    show (if InU b.slong z then castU b.slong z else z) = z
    split_ifs with hz
    · exact castU_of_in hz
    · rfl

end EAntic.Cxx
