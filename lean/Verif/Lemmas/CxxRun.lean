import Verif.Lemmas.CxxDerived

/-! # The C++ elements: every call, every program -/

namespace EAntic.Cxx

variable {β : Type} {U : Prop} {T : String → World → Prop}
variable {L : Lib} {α : ℕ → ℝ} {I : ℕ → Field → Prop} {Λ : Set ℕ} {S : ℕ → Slot} {w : World}

theorem vars_update (S : ℕ → Slot) (x : ℕ) (sl : Slot) :
    Function.update (vars S) (.user x) sl = vars (Function.update S x sl) := by
  funext r
  cases r with
  | user y =>
    by_cases h : y = x
    · subst h; simp [vars]
    · rw [Function.update_of_ne (by simpa using h)]; simp [vars, h]
  | tmp n => rw [Function.update_of_ne (by simp)]; rfl

theorem ret_good {m : W β} {P : β → World → Prop} {f : β → Val} {Q : Val → World → Prop}
    (h : Good U T P (m w)) (hq : ∀ a w', P a w' → Q (f a) w') : Good U T Q (ret f m w) :=
  Good.bind h fun a w' ha => Good.pure (hq a w' ha)

theorem put_good {m : W Unit} {x i : ℕ} {a : ℝ} {c : Cmd}
    (h : Good U T (fun _ w' => Rep L α I Λ (Function.update (vars S) (.user x) (.elem i a)) w') (m w))
    (hc : Step L α S c .unit (Function.update S x (.elem i a))) :
    Good U T (fun ans w' => ∃ S', Step L α S c ans S' ∧ RepresentsUpTo L α I Λ S' w')
      (ret (fun _ => .unit) m w) :=
  ret_good h fun _ w' hr => ⟨_, hc, by rwa [vars_update] at hr⟩

theorem ask_good {m : W β} {P : β → Prop} {f : β → Val} {c : Cmd}
    (h : Good U T (fun b w' => P b ∧ RepresentsUpTo L α I Λ S w') (m w))
    (hc : ∀ b, P b → Step L α S c (f b) S) :
    Good U T (fun ans w' => ∃ S', Step L α S c ans S' ∧ RepresentsUpTo L α I Λ S' w')
      (ret f m w) :=
  ret_good h fun b w' hr => ⟨S, hc b hr.1, hr.2⟩

variable (hE : ∀ i, FieldInv (L.E i) (α i) (I i))
include hE

/-- every call -/
theorem exec_good (hb : L.bits.Ok) {c : Cmd} (h : RepresentsUpTo L α I Λ S w) (hv : Valid L α S c) :
    Good c.approximates
      (fun s w' => Throws L S c s ∧ ∃ Λ', LeaksTo c Λ Λ' ∧ RepresentsUpTo L α I Λ' S w')
      (fun ans w' => ∃ S', Step L α S c ans S' ∧ RepresentsUpTo L α I Λ S' w') (exec L c w) := by
  have ht : ∀ n, vars S (.tmp n) = .absent := fun _ => rfl
  cases c with
  | construct x k => exact put_good (construct_good hE k h (x := .user x) hv) ⟨rfl, rfl⟩
  | constructZ x k z => exact put_good (constructZ_good hE k z h (x := .user x) hv) ⟨rfl, rfl⟩
  | constructQ x k q => exact put_good (constructQ_good hE k q h (x := .user x) hv) ⟨rfl, rfl⟩
  | constructInt x k t z =>
    refine put_good (a := z) (m := constructInt L (.user x) k t z) ?_ ⟨rfl, rfl⟩
    unfold constructInt; rw [native_eq hb hv.2]; exact constructZ_good hE k z h (x := .user x) hv.1
  | constructVec x k n d =>
    exact put_good (constructVec_good hE k h (x := .user x) hv.1 hv.2.1 hv.2.2) ⟨rfl, rfl⟩
  | constructFrom x k y =>
    obtain ⟨hx, j, b, hy⟩ := hv
    refine ret_good (constructFrom_good hE k h (x := .user x) (y := .user y) hx hy
      fun h1 h2 s w' c hw _ => ⟨⟨j, b, hy, h1, h2⟩, _, .inr ⟨trivial, c, rfl⟩, hw⟩) fun _ w' hr => ?_
    rw [vars_update] at hr
    exact ⟨_, ⟨j, b, hy, hr.1, rfl, rfl⟩, hr.2⟩
  | copyCtor x y =>
    obtain ⟨hx, j, b, hy⟩ := hv
    exact put_good (copyCtor_good hE h (x := .user x) (y := .user y) hx hy) ⟨j, b, hy, rfl, rfl⟩
  | moveCtor x y =>
    refine ret_good (moveCtor_good h (x := .user x) (y := .user y) hv.1 hv.2) fun _ w' hr => ?_
    rw [vars_update, vars_update] at hr
    exact ⟨_, ⟨rfl, rfl⟩, hr⟩
  | destroy x =>
    refine ret_good (destroy_good h (x := .user x) hv) fun _ w' hr => ?_
    rw [vars_update] at hr
    exact ⟨_, ⟨rfl, rfl⟩, hr⟩
  | assignZ x z => exact put_good (assignZ_good hE z h (x := .user x) hv) ⟨rfl, rfl⟩
  | assignQ x q => exact put_good (assignQ_good hE q h (x := .user x) hv) ⟨rfl, rfl⟩
  | assignInt x t z =>
    refine put_good (a := z) (m := assignInt L (.user x) t z) ?_ ⟨rfl, rfl⟩
    unfold assignInt; rw [native_eq hb hv.2]; exact assignZ_good hE z h (x := .user x) hv.1
  | copyAssign x y =>
    obtain ⟨hx, j, b, hy⟩ := hv
    exact put_good (copyAssign_good hE h (x := .user x) (y := .user y) hx hy) ⟨j, b, hy, rfl, rfl⟩
  | moveAssign x y =>
    refine ret_good (moveAssign_good h (x := .user x) (y := .user y) hv.1 hv.2) fun _ w' hr => ?_
    rw [vars_update, vars_update, vars_update, vars_update] at hr
    rcases hr with ⟨h1, hr⟩ | ⟨h1, hr⟩
    · exact ⟨_, ⟨rfl, .inl ⟨h1, rfl⟩⟩, hr⟩
    · exact ⟨_, ⟨rfl, .inr ⟨h1, rfl⟩⟩, hr⟩
  | swap x y =>
    refine ret_good (swap_good h (x := .user x) (y := .user y) hv.1 hv.2) fun _ w' hr => ?_
    rw [vars_update, vars_update] at hr
    exact ⟨_, ⟨rfl, rfl⟩, hr⟩
  | binop f x y =>
    obtain ⟨⟨i, a, hx⟩, j, b, hy, hb⟩ := hv
    refine ret_good (binop_good hE f h (x := .user x) (y := .user y) hx hy hb (ht _)
      fun hn s w' hw => ⟨⟨i, a, j, b, hx, hy, hn⟩, _, .inl rfl, hw⟩) fun _ w' hr => ?_
    obtain ⟨hs, k, hk, hr⟩ := hr
    rw [vars_update] at hr
    exact ⟨_, ⟨i, a, j, b, k, hx, hy, hs, hk, rfl, rfl⟩, hr⟩
  | binopZ f x z =>
    obtain ⟨⟨i, a, hx⟩, hz⟩ := hv
    exact put_good (binopZ_good hE f h (x := .user x) hx hz) ⟨i, a, hx, rfl, rfl⟩
  | binopQ f x z =>
    obtain ⟨⟨i, a, hx⟩, hz⟩ := hv
    exact put_good (binopQ_good hE f h (x := .user x) hx hz) ⟨i, a, hx, rfl, rfl⟩
  | binopInt f x t z =>
    obtain ⟨⟨i, a, hx⟩, hi, hz⟩ := hv
    refine put_good (i := i) (a := f.real a z) (m := binopInt L f (.user x) t z) ?_
      ⟨i, a, hx, rfl, rfl⟩
    unfold binopInt; rw [native_eq hb hi]; exact binopZ_good hE f h (x := .user x) hx hz
  | binary f r x y =>
    obtain ⟨hr, ⟨i, a, hx⟩, j, b, hy, hb⟩ := hv
    refine ret_good (binary_good hE f h (r := .user r) (x := .user x) (y := .user y) hr (by simp) hx hy
      hb (ht _) fun hn s w' hw => ⟨⟨i, a, j, b, hx, hy, hn⟩, _, .inl rfl, hw⟩) fun _ w' hr => ?_
    obtain ⟨hs, k, hk, hr⟩ := hr
    rw [vars_update] at hr
    exact ⟨_, ⟨i, a, j, b, k, hx, hy, hs, hk, rfl, rfl⟩, hr⟩
  | binaryNum f r x n =>
    obtain ⟨hr, ⟨i, a, hx⟩, hn, hz⟩ := hv
    exact put_good (binaryNum_good hE hb f h (r := .user r) (x := .user x) hr hx hn hz)
      ⟨i, a, hx, rfl, rfl⟩
  | numBinary f r n y =>
    obtain ⟨hr, hn, j, b, hy, hz⟩ := hv
    refine ret_good (numBinary_good hE hb f h (r := .user r) (y := .user y) hr (by simp) hy hn
      hz (ht _)) fun _ w' hr => ?_
    obtain ⟨k, hk, hr⟩ := hr
    rw [vars_update] at hr
    exact ⟨_, ⟨j, b, k, hy, hk, rfl, rfl⟩, hr⟩
  | neg r x =>
    obtain ⟨hr, i, a, hx⟩ := hv
    exact put_good (neg_good hE h (r := .user r) (x := .user x) hr hx) ⟨i, a, hx, rfl, rfl⟩
  | pow r x e =>
    obtain ⟨hr, _, i, a, hx, he⟩ := hv
    exact put_good (pow_good hE h (r := .user r) (x := .user x) hr hx he) ⟨i, a, hx, rfl, rfl⟩
  | isZero x =>
    obtain ⟨i, a, hx⟩ := hv
    exact ask_good ((isZero_good hE h (x := .user x) hx).mono fun _ _ h => ⟨h.1, h.2.1⟩)
      fun b hb => ⟨i, a, hx, rfl, b, rfl, hb⟩
  | isOne x =>
    obtain ⟨i, a, hx⟩ := hv
    exact ask_good ((isOne_good hE h (x := .user x) hx).mono fun _ _ h => ⟨h.1, h.2.1⟩)
      fun b hb => ⟨i, a, hx, rfl, b, rfl, hb⟩
  | isInteger x =>
    obtain ⟨i, a, hx⟩ := hv
    exact ask_good ((isInteger_good hE h (x := .user x) hx).mono fun _ _ h => ⟨h.1, h.2.1⟩)
      fun b hb => ⟨i, a, hx, rfl, b, rfl, hb⟩
  | isRational x =>
    obtain ⟨i, a, hx⟩ := hv
    exact ask_good ((isRational_good hE h (x := .user x) hx).mono fun _ _ h => ⟨h.1, h.2.1⟩)
      fun b hb => ⟨i, a, hx, rfl, b, rfl, hb⟩
  | toBool x =>
    obtain ⟨i, a, hx⟩ := hv
    refine ask_good (P := fun b => b = true ↔ a ≠ 0) (m := toBool L (.user x)) ?_
      fun b hb => ⟨i, a, hx, rfl, b, rfl, hb⟩
    refine Good.bind (isZero_good hE h (x := .user x) hx) ?_
    rintro b w₁ ⟨hb, h₁, _⟩
    refine Good.pure ⟨?_, h₁⟩
    rw [Bool.not_eq_true', ← Bool.not_eq_true, hb]
  | eq x y =>
    obtain ⟨⟨i, a, hx⟩, j, b, hy⟩ := hv
    exact ask_good (P := fun r => (i = j ∨ IsRat a ∨ IsRat b) ∧ (r = true ↔ a = b)) ((eq_good hE h (x := .user x) (y := .user y) hx hy
      fun hn s w' hw => ⟨⟨i, a, j, b, hx, hy, hn⟩, _, .inl rfl, hw⟩).mono fun _ _ h => ⟨⟨h.1, h.2.1⟩, h.2.2⟩)
      fun r hr => ⟨i, a, j, b, hx, hy, hr.1, rfl, r, rfl, hr.2⟩
  | eqQ x q =>
    obtain ⟨i, a, hx⟩ := hv
    exact ask_good (eqQ_good hE h (x := .user x) hx q) fun b hb => ⟨i, a, hx, rfl, b, rfl, hb⟩
  | eqZ x z =>
    obtain ⟨i, a, hx⟩ := hv
    exact ask_good (eqZ_good hE h (x := .user x) hx z true)
      fun b hb => ⟨i, a, hx, rfl, b, rfl, hb⟩
  | eqInt x t z =>
    obtain ⟨⟨i, a, hx⟩, hi⟩ := hv
    refine ask_good (P := fun b => b = true ↔ a = z) (m := eqInt L (.user x) t z) ?_
      fun b hb => ⟨i, a, hx, rfl, b, rfl, hb⟩
    unfold eqInt
    rw [native_eq hb hi]
    split_ifs with h0
    · rw [h0.2, Int.cast_zero]
      exact (isZero_good hE h (x := .user x) hx).mono fun _ _ h => ⟨h.1, h.2.1⟩
    · exact eqZ_good hE h (x := .user x) hx z _
  | toMpz x =>
    obtain ⟨i, a, hx, ha⟩ := hv
    exact ask_good ((toMpz_good hE h (x := .user x) hx ha).mono fun _ _ h => ⟨h.1, h.2.1⟩)
      fun z hz => ⟨rfl, i, a, z, hx, rfl, hz⟩
  | toMpq x =>
    obtain ⟨i, a, hx, ha⟩ := hv
    exact ask_good ((toMpq_good hE h (x := .user x) hx ha).mono fun _ _ h => ⟨h.1, h.2.1⟩)
      fun z hz => ⟨rfl, i, a, z, hx, rfl, hz⟩
  | num x =>
    obtain ⟨i, a, hx, ha⟩ := hv
    refine ask_good ((num_good hE h (x := .user x) hx ha).mono fun _ _ h => ⟨h.1, h.2.1⟩) ?_
    rintro z ⟨q, hq, rfl⟩
    exact ⟨rfl, i, a, q, hx, rfl, hq⟩
  | den x =>
    obtain ⟨i, a, hx⟩ := hv
    exact ask_good ((den_good hE h (x := .user x) hx).mono fun _ _ h => ⟨h.1, h.2.1⟩)
      fun d hd => ⟨rfl, i, a, d, hx, rfl, hd⟩
  | numVector x =>
    obtain ⟨i, a, hx⟩ := hv
    refine ask_good ((numVector_good hE h (x := .user x) hx).mono fun _ _ h => ⟨h.1, h.2.1⟩) ?_
    rintro l ⟨hl, d, h1, h2⟩
    exact ⟨rfl, i, a, l, d, hx, rfl, hl, h1, h2⟩
  | numContent x =>
    obtain ⟨i, a, hx⟩ := hv
    refine ask_good ((numContent_good hE h (x := .user x) hx).mono fun _ _ h => ⟨h.1, h.2.1⟩) ?_
    rintro g ⟨l, d, h1, h2, h3, h4, h5, h6⟩
    exact ⟨rfl, i, a, l, d, g, hx, rfl, h1, h2, h3, h4, h5, h6⟩
  | lt x y =>
    obtain ⟨⟨i, a, hx⟩, j, b, hy⟩ := hv
    exact ask_good (P := fun r => (i = j ∨ IsRat a ∨ IsRat b) ∧ (r = true ↔ a < b)) ((lt_good hE trivial h (x := .user x) (y := .user y) hx hy
      fun hn s w' hw => ⟨⟨i, a, j, b, hx, hy, hn⟩, _, .inl rfl, hw⟩).mono fun _ _ h => ⟨⟨h.1, h.2.1⟩, h.2.2⟩)
      fun r hr => ⟨i, a, j, b, hx, hy, hr.1, rfl, r, rfl, hr.2⟩
  | ltQ x q =>
    obtain ⟨i, a, hx⟩ := hv
    refine ask_good (P := fun b => b = true ↔ a < q) (m := ltQ L (.user x) q) ?_
      fun b hb => ⟨i, a, hx, rfl, b, rfl, hb⟩
    refine Good.bind (cmpQ_good hE trivial h (x := .user x) hx q) ?_
    rintro z w₁ ⟨rfl, h₁, _⟩
    refine Good.pure ⟨?_, h₁⟩
    rw [beq_iff_eq, sgnR_sign, sgnR_eq_neg_one, sub_neg]
  | gtQ x q =>
    obtain ⟨i, a, hx⟩ := hv
    refine ask_good (P := fun b => b = true ↔ q < a) (m := gtQ L (.user x) q) ?_
      fun b hb => ⟨i, a, hx, rfl, b, rfl, hb⟩
    refine Good.bind (cmpQ_good hE trivial h (x := .user x) hx q) ?_
    rintro z w₁ ⟨rfl, h₁, _⟩
    refine Good.pure ⟨?_, h₁⟩
    rw [beq_iff_eq, sgnR_sign, sgnR_eq_one, sub_pos]
  | ltInt x t z =>
    obtain ⟨⟨i, a, hx⟩, hi⟩ := hv
    refine ask_good (P := fun b => b = true ↔ a < z) (m := ltInt L (.user x) t z) ?_
      fun b hb => ⟨i, a, hx, rfl, b, rfl, hb⟩
    unfold ltInt
    rw [native_eq hb hi]
    refine Good.bind (cmpQ_good hE trivial h (x := .user x) hx z) ?_
    rintro c w₁ ⟨rfl, h₁, _⟩
    refine Good.pure ⟨?_, h₁⟩
    rw [decide_eq_true_eq, sgnR_neg_iff, sub_neg, Rat.cast_intCast]
  | gtInt x t z =>
    obtain ⟨⟨i, a, hx⟩, hi⟩ := hv
    refine ask_good (P := fun b => b = true ↔ z < a) (m := gtInt L (.user x) t z) ?_
      fun b hb => ⟨i, a, hx, rfl, b, rfl, hb⟩
    unfold gtInt
    rw [native_eq hb hi]
    refine Good.bind (cmpQ_good hE trivial h (x := .user x) hx z) ?_
    rintro c w₁ ⟨rfl, h₁, _⟩
    refine Good.pure ⟨?_, h₁⟩
    rw [decide_eq_true_eq, sgnR_pos_iff, sub_pos, Rat.cast_intCast]
  | rel o x y =>
    obtain ⟨⟨i, a, hx⟩, j, b, hy⟩ := hv
    exact ask_good (P := fun r => (i = j ∨ IsRat a ∨ IsRat b) ∧ (r = true ↔ o.Holds a b))
      ((rel_good hE o id h (x := .user x) (y := .user y) hx hy
        fun hn s w' hw => ⟨⟨i, a, j, b, hx, hy, hn⟩, _, .inl rfl, hw⟩).mono
          fun _ _ h => ⟨⟨h.1, h.2.1⟩, h.2.2⟩)
      fun r hr => ⟨i, a, j, b, hx, hy, hr.1, rfl, r, rfl, hr.2⟩
  | relNum o x n =>
    obtain ⟨⟨i, a, hx⟩, hn⟩ := hv
    exact ask_good (relNum_good hE hb o id h (x := .user x) hx hn)
      fun b hb => ⟨i, a, hx, rfl, b, rfl, hb⟩
  | numRel o n x =>
    obtain ⟨⟨i, a, hx⟩, hn⟩ := hv
    exact ask_good (numRel_good hE hb o id h (x := .user x) hx hn)
      fun b hb => ⟨i, a, hx, rfl, b, rfl, hb⟩
  | sgn x =>
    obtain ⟨i, a, hx⟩ := hv
    refine ask_good ((sgn_good hE trivial h (x := .user x) hx).mono fun _ _ h => ⟨h.1, h.2.1⟩) ?_
    rintro z rfl
    exact ⟨rfl, i, a, hx, rfl⟩
  | floor x =>
    obtain ⟨i, a, hx⟩ := hv
    exact ask_good ((floor_good hE trivial h (x := .user x) hx).mono fun _ _ h => ⟨h.1, h.2.1⟩)
      fun z hz => ⟨rfl, i, a, z, hx, rfl, hz⟩
  | ceil x =>
    obtain ⟨i, a, hx⟩ := hv
    exact ask_good ((ceil_good hE trivial h (x := .user x) hx).mono fun _ _ h => ⟨h.1, h.2.1⟩)
      fun z hz => ⟨rfl, i, a, z, hx, rfl, hz⟩
  | floordiv x y =>
    obtain ⟨i, a, j, b, hx, hy, hb, hij⟩ := hv
    exact ask_good (floordiv_good hE trivial h (x := .user x) (y := .user y) hx hy hb hij (ht _) (ht _)
      fun h1 hn s w' hw => ⟨⟨i, a, j, b, hx, hy, h1, hn⟩, _, .inl rfl, hw⟩) fun z hz => ⟨rfl, i, a, j, b, z, hx, hy, rfl, hz⟩
  | toDouble x =>
    obtain ⟨i, a, hx⟩ := hv
    exact ask_good ((toDouble_good hE trivial h (x := .user x) hx).mono fun _ _ h =>
      ⟨h.1.castsTo, h.2.1⟩) fun d hd => ⟨rfl, i, a, d, hx, rfl, hd⟩

/-- every program -/
theorem execAll_good (hb : L.bits.Ok) : ∀ {cs : List Cmd} {S : ℕ → Slot} {w : World},
    RepresentsUpTo L α I Λ S w → Allowed L α S cs →
    Good (∃ c ∈ cs, c.approximates) (fun s _ => ThrowsIn L α S cs s)
      (fun as w' => ∃ S', Steps L α S cs as S' ∧ RepresentsUpTo L α I Λ S' w') (execAll L cs w)
  | [], S, w, h, _ => ⟨S, rfl, h⟩
  | c :: cs, S, w, h, hv => by
    unfold execAll
    refine Good.bind ((exec_good hE hb h hv.1).weaken (fun hu => ⟨c, by simp, hu⟩)
      fun s _ hs => .inl hs.1) ?_
    rintro a w₁ ⟨S₁, hs, h₁⟩
    refine Good.bind ((execAll_good hb h₁ (hv.2 a S₁ hs)).weaken
      (fun ⟨c', hc, hu⟩ => ⟨c', by simp [hc], hu⟩) fun s _ ht => .inr ⟨a, S₁, hs, ht⟩) ?_
    rintro as w₂ ⟨S₂, hs₂, h₂⟩
    exact Good.pure ⟨S₂, ⟨S₁, hs, hs₂⟩, h₂⟩

omit hE in
theorem attempt_good {m : W β} {Q : β → World → Prop} {R : Except String β → World → Prop}
    (h : Good U T Q (m w)) (hQ : ∀ a w', Q a w' → R (.ok a) w')
    (hT : ∀ s w', T s w' → R (.error s) w') : Good U (fun _ _ => False) R (attempt m w) := by
  unfold attempt
  cases hm : m w with
  | ok p => rw [hm] at h; exact hQ _ _ h
  | throw s w' => rw [hm] at h; exact hT _ _ h
  | running => rw [hm] at h; exact h
  | abort => rw [hm] at h; exact h
  | ub => rw [hm] at h; exact h

/-- every program that catches exceptions -/
theorem execCatching_good (hb : L.bits.Ok) :
    ∀ {cs : List Cmd} {Λ : Set ℕ} {S : ℕ → Slot} {w : World},
    RepresentsUpTo L α I Λ S w → Λ.Finite → TryAllowed L α S cs →
    Good (∃ c ∈ cs, c.approximates) (fun _ _ => False)
      (fun rs w' => ∃ S' Λ', TrySteps L α S cs rs S' ∧ RepresentsUpTo L α I Λ' S' w' ∧
        Λ'.Finite ∧ Λ'.ncard ≤ Λ.ncard + failedConversions cs rs) (execCatching L cs w)
  | [], Λ, S, w, h, hf, _ => ⟨S, Λ, rfl, h, hf, by simp [failedConversions]⟩
  | c :: cs, Λ, S, w, h, hf, hv => by
    classical
    unfold execCatching
    refine Good.bind ((attempt_good (exec_good hE hb h hv.1)
      (R := fun r w' => ∃ S' Λ', TryStep L α S c r S' ∧ RepresentsUpTo L α I Λ' S' w' ∧
        Λ'.Finite ∧ Λ'.ncard ≤ Λ.ncard + failedConversions [c] [r]) ?_ ?_).weaken
      (fun hu => ⟨c, by simp, hu⟩) fun _ _ h => h) ?_
    · rintro a w' ⟨S', hs, hr⟩
      exact ⟨S', Λ, hs, hr, hf, by simp⟩
    · rintro s w' ⟨ht, Λ', hl, hr⟩
      refine ⟨S, Λ', ⟨ht, rfl⟩, hr, ?_⟩
      rcases hl with rfl | ⟨hc, d, rfl⟩
      · exact ⟨hf, by simp⟩
      · refine ⟨hf.insert d, ?_⟩
        simp only [failedConversions, if_pos hc]
        exact Set.ncard_insert_le d Λ
    · rintro r w₁ ⟨S₁, Λ₁, hs, h₁, hf₁, hl₁⟩
      refine Good.bind ((execCatching_good hb h₁ hf₁ (hv.2 r S₁ hs)).weaken
        (fun ⟨c', hc, hu⟩ => ⟨c', by simp [hc], hu⟩) fun _ _ h => h) ?_
      rintro rs w₂ ⟨S₂, Λ₂, hs₂, h₂, hf₂, hl₂⟩
      refine Good.pure ⟨S₂, Λ₂, ⟨S₁, hs, hs₂⟩, h₂, hf₂, ?_⟩
      cases r <;> simp only [failedConversions] at hl₁ ⊢ <;> omega

end EAntic.Cxx
